#!/usr/bin/env python3
"""Writes /verif/properties.jsonl (one property per line).  Source of truth for the property list."""
import json, os
P = []
def p(id, title, statement, quantifier, why, anchors):
    P.append(dict(id=id, title=title, statement=statement, quantifier=quantifier,
                  why_tests_cant=why, anchors=anchors))

# ---------------------------------------------------------------- HOD
p("C01", "Central condition: no satellites without centrals",
  "For an HOD built with central=True, satellite_occupation(m) is zero at every halo mass m at which the mean number of centrals nc(m) is zero; with central=False (or for an HOD whose definition already implies the condition) the satellite occupation is returned unmodified. central=True multiplies the class's satellite function by nc(m) exactly once.",
  "every HOD class of the module, every parameter value, every halo mass",
  "It is a statement about a continuum of masses and parameters and about the composition of base-class and subclass methods; a test evaluates finitely many masses of a few classes.",
  ["src/halomod/hod.py:HOD.satellite_occupation", "src/halomod/hod.py:HODPoisson.nc", "src/halomod/hod.py:HODNoCentral", "src/halomod/hod.py:Tinker05"])
p("C02", "Pair counts and scatters are the moments of the assumed galaxy distribution",
  "For discrete HODs with unit mark, ss_pairs(m) is the mean number of ordered satellite pairs E[N(N-1)] and sigma_satellite(m) the standard deviation of a Poisson variable with mean satellite_occupation(m); sigma_central(m) is the standard deviation of a 0/1 variable with mean central_occupation(m); cs_pairs(m) is E[Nc*Ns], under independence when central=False and with satellites only in haloes with a central when central=True. Total occupation and total pair function are the sums of their parts.",
  "every halo mass, every parameter value with occupations in their legal range, both values of central",
  "Equality with an infinite-sum expectation cannot be observed by sampling.",
  ["src/halomod/hod.py:HODPoisson", "src/halomod/hod.py:HOD.total_occupation", "src/halomod/hod.py:HOD.total_pair_function"])
p("C03", "Occupation functions are in range, have the right support, and grow with mass",
  "Zehavi05/Zheng05 central occupations lie in [0,1], never decrease with halo mass and switch at 10**M_min (step exactly there for Zehavi05, value 1/2 there for Zheng05); satellite occupations are non-negative, non-decreasing for alpha>=0, vanish at and below 10**M_0 for Zheng05 and equal 1 at 10**M_1 for Zehavi05; bounded-mass variants (centrals always, satellites when the central condition is on) vanish outside [10**M_min, 10**M_max].",
  "all halo masses m>0 and all parameter values (alpha>=0, sig_logm>0)",
  "Range, support and monotonicity are statements about all pairs of masses, including those adjacent to the thresholds.",
  ["src/halomod/hod.py:Zehavi05", "src/halomod/hod.py:Zheng05", "src/halomod/hod.py:Zehavi05WithMax", "src/halomod/hod.py:ContinuousPowerLaw", "src/halomod/hod.py:Constant", "src/halomod/hod.py:Contreras13"])
p("C04", "A mark does not change normalised statistics",
  "Zehavi05Marked with any logA gives the same number of centrals/satellites (nc, ns) as with logA=0 and its occupations scale by 10**logA and its pair counts by 10**(2 logA), so every ratio pairs/(occupation*occupation) is that of Zehavi05WithMax; its scatters must scale by 10**logA as well.",
  "all logA, all masses, all other parameters, both values of central",
  "An equality between two models over a continuum of parameters.",
  ["src/halomod/hod.py:Zehavi05Marked", "src/halomod/hod.py:HODPoisson"])
p("C05", "Occupations are numbers at every mass",
  "Evaluating any HOD's occupation functions at a positive finite mass returns a finite non-negative number, in particular Tinker05 returns zero satellites at and below 10**M_min and nc() of every Poisson HOD is finite.",
  "all halo masses m>0, all finite parameters",
  "The failing masses form a tiny interval beneath a parameter-dependent threshold; sampled grids miss it.",
  ["src/halomod/hod.py:Tinker05._satellite_occupation", "src/halomod/hod.py:Spinelli19._tracer_per_central"])
p("C06", "Leauthaud11 stellar-to-halo-mass relation is monotone, and evaluation order does not matter",
  "mean_log_halo_mass is strictly increasing in stellar mass for beta>0, delta,gamma>=0; the sequence of occupation evaluations made on one instance does not change any later returned value (occupations or mmin).",
  "all stellar masses and parameters; every finite sequence of method calls on one instance",
  "Order-independence ranges over all call histories.",
  ["src/halomod/hod.py:Leauthaud11"])
# ---------------------------------------------------------------- populate
p("C07", "Catalogue accounting of populate()",
  "The catalogue returned by populate has exactly (number of haloes given a central)+(total number of satellites drawn) rows in each of its arrays; the first n_cen rows are the centrals, one per selected halo in ascending halo order, placed at the halo centre; the satellites of each halo form a contiguous block of exactly its drawn count, following the blocks of earlier haloes; every halo index is a valid index of the input arrays.",
  "any number of haloes, any masses, any outcome of the random draws",
  "Depends on every possible outcome of random draws and all sizes, including zero centrals or zero satellites.",
  ["src/halomod/tools.py:populate"])
p("C08", "populate() respects the central condition halo by halo",
  "With an HOD that enforces the central condition, every satellite in the catalogue lives in a halo that also has a central in the catalogue; without it, every halo may host satellites.",
  "any haloes, any random outcome",
  "A universal statement over random outcomes.",
  ["src/halomod/tools.py:populate"])
p("C09", "populate() galaxies lie in their halo and, when a box is given, in the box",
  "Each satellite's distance to its halo's centre equals the drawn radius |x| r_s, hence never exceeds the virial radius of a halo truncated at x=c; if periodic box edges are given, every coordinate of every returned galaxy lies in [lo, hi] and differs from the unwrapped coordinate by a multiple of the box length, galaxies already in the box being left alone.",
  "all halo positions, masses, draws, and box sizes",
  "Wrapping errors appear only for particular offsets; quantifies over all real coordinates.",
  ["src/halomod/tools.py:populate", "src/halomod/profiles.py:Profile.populate"])
p("C10", "Mean satellite number in the catalogue matches the HOD",
  "The mean number of satellites populate() puts in a halo of mass m equals satellite_occupation(m)/tracer-per-satellite = ns(m), and the mean number of centrals equals nc(m).",
  "all HODs, masses and parameters, both values of central",
  "An exact expectation over random outcomes.",
  ["src/halomod/tools.py:populate", "src/halomod/hod.py"])
# ---------------------------------------------------------------- tools
p("C11", "hankel_transform sums a contiguous set of nodes exactly once and terminates",
  "For any integrand the Ogata transform terminates, and the value it returns is the fixed normalisation times the sum over the first n-1 quadrature nodes, each node used exactly once, for some n no larger than the first chunk boundary at or above int(3.2/h); a NaN result is replaced by zero; the k- and r-space versions differ exactly by the factor 8 pi^3.",
  "all integrands, evaluation points, step sizes h, chunk sizes and tolerances",
  "Termination and node accounting quantify over all convergence histories.",
  ["src/halomod/tools.py:hankel_transform", "src/halomod/tools.py:_get_sumspace", "src/halomod/tools.py:corr_to_power_ogata"])
p("C12", "ExtendedSpline evaluates the right branch everywhere and joins continuously",
  "An ExtendedSpline returns the interpolant inside the data range (end points included, hence the data values at the data points), the lower function below it and the upper function above it, for scalars and arrays alike; with match_lower/match_upper and a non-zero function value at the boundary the result agrees with the data at that boundary; data outside the declared domain raise a ValueError, and 'power_law' extensions continue data that follow a power law (of either sign) and join the data at the boundary.",
  "all evaluation points, all data, all extension functions",
  "Boundary points and sign cases of the data are a measure-zero set that sampling skips.",
  ["src/halomod/tools.py:ExtendedSpline", "src/halomod/tools.py:_PowerLawExtension", "src/halomod/tools.py:_NormedCallable"])
p("C13", "spline_integral integrates between the limits the caller gave",
  "spline_integral(x,f,xmin,xmax,log) returns the integral of the (linear or logarithmic) interpolant between xmin and xmax, with the data range as default for a limit that is not given, and warns exactly if a limit lies outside the data.",
  "all data and limits, including zero and negative limits",
  "The failing limit value (0) is a single point of a continuum.",
  ["src/halomod/tools.py:spline_integral"])
p("C14", "corr/power transforms are linear and mutually consistent",
  "power_to_corr (Simpson) is linear in the power; corr_to_power_ogata applied to a function equals 8 pi^3 times power_to_corr_ogata of it at the same node set; the windowed 3D sinc kernel weights the integrand by sin(kr)/(kr).",
  "all power spectra, all scales",
  "Linearity quantifies over all functions.",
  ["src/halomod/tools.py:power_to_corr", "src/halomod/tools.py:power_to_corr_ogata", "src/halomod/tools.py:corr_to_power_ogata"])
p("C15", "The exclusion window is a normalised top-hat transform",
  "exclusion_window(k,r) is the Fourier transform of a normalised top-hat: it is 3*(sin x - x cos x)/x^3 with x=k r, at most 1 in absolute value, and tends to 1 as k r tends to 0.",
  "all k, r with k r>0",
  "A bound and a limit over a continuum, with cancellation near 0.",
  ["src/halomod/tools.py:exclusion_window"])
# ---------------------------------------------------------------- exclusion
p("C16", "Halo exclusion only removes pairs, symmetrically and monotonically in separation",
  "At separation r, Sphere admits a halo of mass m iff its radius does not exceed r/2; DblSphere admits the pair (m1,m2) iff r1+r2<=r; every pair admitted by Sphere is admitted by DblSphere; admitted sets are symmetric in the two haloes and grow with r.",
  "all separations, halo masses, mean densities",
  "Quantifies over all pairs and all separations including ties.",
  ["src/halomod/halo_exclusion.py:Sphere", "src/halomod/halo_exclusion.py:DblSphere"])
p("C17", "Ellipsoidal exclusion probability",
  "The DblEllipsoid pair probability lies in [0,1], is symmetric in the two haloes, non-decreasing in r, 0 for r<=0.8(R1+R2) and 1 for r>=1.09(R1+R2); the fast (numba) variant computes the same value for every pair, irrespective of memory it leaves uninitialised.",
  "all pairs of haloes, all separations, any contents of uninitialised memory",
  "A range/monotonicity statement over a continuum; independence of garbage cannot be tested.",
  ["src/halomod/halo_exclusion.py:DblEllipsoid", "src/halomod/halo_exclusion.py:DblEllipsoid_", "src/halomod/halo_exclusion.py:prob_inner_"])
p("C18", "Exclusion has no effect beyond twice the largest halo",
  "For every separation larger than twice the largest halo radius (1.09 times that for ellipsoids), the two-halo integral with exclusion equals the one without exclusion and the density modification is 1.",
  "all grids (length n, any parity), all integrands, all k, all large r, with and without a minimum mass",
  "Universal over grids and integrands; the even-length Simpson correction is exercised only for some lengths.",
  ["src/halomod/halo_exclusion.py:NoExclusion.integrate", "src/halomod/halo_exclusion.py:Sphere.integrate", "src/halomod/halo_exclusion.py:DblSphere.integrate"])
p("C19", "Fast double-integral kernels equal the documented double Simpson/trapezoid rule",
  "For every n, the weight matrix built by the numba code is the outer product of the one-dimensional weights and the half-triangle sum with doubled off-diagonals equals the full double sum over the symmetric integrand; for odd n it equals iterated composite Simpson; dbltrapz_ equals the iterated trapezoid rule for every n.",
  "all n>=1, all symmetric integrands, all grid spacings",
  "An identity for every array size; uninitialised lower triangles cannot be tested.",
  ["src/halomod/halo_exclusion.py:makeW_", "src/halomod/halo_exclusion.py:makeH_", "src/halomod/halo_exclusion.py:dblsimps_", "src/halomod/halo_exclusion.py:dbltrapz_"])
p("C20", "Fast exclusion classes agree with the plain ones",
  "DblSphere_, DblEllipsoid_ and NgMatched_ return the same two-halo integrals and density modifications as DblSphere, DblEllipsoid and NgMatched (they are documented as 'the same as', sped up).",
  "all grids, integrands, separations",
  "Equality over all inputs of two implementations.",
  ["src/halomod/halo_exclusion.py:DblSphere_", "src/halomod/halo_exclusion.py:DblEllipsoid_", "src/halomod/halo_exclusion.py:integrate_dblsphere_"])
p("C21", "cumsimps is a cumulative Simpson integral",
  "Entry i of cumsimps(func, dx) approximates the integral of func from the first sample to sample i: it equals the composite Simpson rule over the first i+1 samples at every even index i, the last one (the full integral) included.",
  "all arrays and spacings",
  "Exactness for all lengths.",
  ["src/halomod/halo_exclusion.py:cumsimps"])
p("C22", "Halo exclusion never increases the two-halo integral",
  "For non-negative integrands, on a uniform log grid, the two-halo integral with any exclusion model (no minimum mass) is non-negative, does not exceed that without exclusion and is non-decreasing in r, and Sphere never keeps more than DblSphere; the same order holds for the modified number densities; the integrand equals m * dndm * occupation * bias * u at every grid point, whether the bias is a function of mass only or of scale and mass.",
  "all non-negative inputs, all grids, all r",
  "Inequality over all inputs.",
  ["src/halomod/halo_exclusion.py:Exclusion.raw_integrand", "src/halomod/halo_exclusion.py:Sphere.integrate", "src/halomod/halo_exclusion.py:DblSphere", "src/halomod/halo_exclusion.py:DblEllipsoid", "src/halomod/halo_exclusion.py:NgMatched"])
# ---------------------------------------------------------------- profiles
p("C23", "Mass, radius and scale-radius conversions are mutually inverse",
  "For every profile (without bloating), halo_radius_to_mass(halo_mass_to_radius(m)) = m and vice versa, and scale_radius(m) times concentration equals the halo radius, at the reference epoch or at z.",
  "all masses, radii, redshifts, concentrations",
  "Round trips on a continuum; Moore overrides part of the chain.",
  ["src/halomod/profiles.py:Profile.halo_mass_to_radius", "src/halomod/profiles.py:Profile.halo_radius_to_mass", "src/halomod/profiles.py:Profile.scale_radius", "src/halomod/profiles.py:Moore"])
p("C24", "Analytic profile normalisations are the integrals they claim to be",
  "For NFW, Hernquist, Moore, Constant, CoredNFW the normalising function equals the integral of x^2 f(x) from 0 to c, so that the truncated density profile rho integrated over the halo volume gives exactly 1 with norm='m'.",
  "all concentrations c>0",
  "Equality with an integral for all c.",
  ["src/halomod/profiles.py:Profile._h", "src/halomod/profiles.py:NFW._h", "src/halomod/profiles.py:Hernquist._h", "src/halomod/profiles.py:Moore._h", "src/halomod/profiles.py:CoredNFW._h", "src/halomod/profiles.py:Constant._h"])
p("C25", "Density profile is non-negative, truncated at the virial radius and integrates to the halo mass",
  "rho(r,m) is 0 outside the virial radius, non-negative, non-increasing inside; with norm=None it integrates to the halo mass m.",
  "all radii, masses, redshifts",
  "Integral identity over a continuum of inputs.",
  ["src/halomod/profiles.py:Profile.rho", "src/halomod/profiles.py:Profile._rho_s"])
p("C26", "Normalised Fourier transform of the profile",
  "u(k,m,norm='m') is the Fourier transform of the normalised density: for Constant, NFW, Hernquist and CoredNFW the analytic expression equals (1/K) * integral of x f(x) sin(Kx); its absolute value never exceeds 1 and it tends to 1 as k->0.",
  "all wavenumbers, masses, concentrations",
  "Closed forms with Si/Ci against an integral for all K.",
  ["src/halomod/profiles.py:Profile.u", "src/halomod/profiles.py:NFW._p", "src/halomod/profiles.py:Hernquist._p", "src/halomod/profiles.py:CoredNFW._p", "src/halomod/profiles.py:Constant._p"])
p("C27", "Radial CDF of a profile is a CDF",
  "cdf(r,m) is 0 at the centre, non-decreasing, and 1 at (and beyond) the virial radius, in whichever coordinate it is evaluated.",
  "all radii, masses and concentrations",
  "Monotonicity over all radii.",
  ["src/halomod/profiles.py:Profile.cdf"])
p("C28", "Untruncated profiles are the limits of truncated ones",
  "The '-Inf' variants have the same density shape without truncation and their Fourier transforms are the limits for large concentration of the truncated analytic ones.",
  "all wavenumbers, all profiles with an Inf variant",
  "A limit.",
  ["src/halomod/profiles.py:ProfileInf", "src/halomod/profiles.py:NFWInf", "src/halomod/profiles.py:HernquistInf"])
p("C29", "NFW self-convolution is continuous with bounded support",
  "The analytic NFW profile self-convolution vanishes beyond twice the virial radius and its two branches agree where they meet (at the virial radius) and with zero at twice the virial radius.",
  "all concentrations",
  "Equality of branch formulas for every c.",
  ["src/halomod/profiles.py:NFW._l"])
# ---------------------------------------------------------------- concentration
p("C30", "Concentrations are positive and fall with mass and redshift",
  "Power-law concentration-mass relations return positive concentrations, strictly decreasing in mass for b<0 and in redshift for c>0, with cm(pivot,z=0)=norm*a; Duffy08 uses the published row for the given mass definition and sample, and a parameter the user supplies explicitly is used.",
  "all masses, redshifts and parameter values",
  "Monotonicity, plus parameter values (0) that collide with 'not given'.",
  ["src/halomod/concentration.py:Bullock01Power", "src/halomod/concentration.py:Duffy08", "src/halomod/concentration.py:Zehavi11"])
p("C31", "Interpolated concentrations are positive and agree with valid samples",
  "interp_concentration returns strictly positive concentrations and reproduces the computed value wherever the computed value is positive; Ludlow16's array evaluation always stays inside the tabulated concentration range and never raises a bounds error: Ludlow16's cm of an array is, for each mass whatever the others, norm times a value between two tried concentrations that bracket the solution of its equations, or an end of the tried range where there is none, and there a plain number raises.",
  "all arrays of masses and raw concentrations with at least two positive values",
  "All arrays.",
  ["src/halomod/concentration.py:interp_concentration", "src/halomod/concentration.py:Ludlow16"])
p("C32", "Bullock01 collapse redshift",
  "The collapse redshift of Bullock01 is never below the halo redshift, so c >= K (and c=K for haloes that have not collapsed).",
  "all masses and redshifts",
  "Case split hidden in a clamp, over a continuum.",
  ["src/halomod/concentration.py:Bullock01"])
# ---------------------------------------------------------------- bias
p("C33", "Peak-background split: mean bias is one",
  "For each bias model paired with its own mass function (Press-Schechter with Mo96/UnityBias, Sheth-Tormen with ST99, Tinker with Tinker10PBSplit), the bias weighted by the mass-weighted abundance integrates to the integral of the abundance, so matter is unbiased against itself.",
  "all admissible parameter values, all of nu in (0,infinity)",
  "An improper-integral identity for a continuum of parameters.",
  ["src/halomod/bias.py:Mo96", "src/halomod/bias.py:ST99", "src/halomod/bias.py:Tinker10PBSplit"])
p("C34", "Bias functions are positive and increase with peak height; typical haloes are unbiased",
  "Mo96 bias is 1 at nu=1, strictly increasing in nu and positive for delta_c>=1; ST99 with p=0,q=1 is Mo96; Jing98, SMT01, Pillepich10 are positive over their default parameters; UnityBias is 1.",
  "all nu>0",
  "Positivity/monotonicity on a continuum.",
  ["src/halomod/bias.py:Mo96", "src/halomod/bias.py:Jing98", "src/halomod/bias.py:ST99", "src/halomod/bias.py:SMT01", "src/halomod/bias.py:Pillepich10"])
p("C35", "Scale-dependent bias",
  "Scale-dependent bias corrections are positive where the correlation is non-negative and equal 1 where the matter correlation vanishes.",
  "all correlation values > -1/1.17...",
  "Continuum.",
  ["src/halomod/bias.py:TinkerSD05"])
# ---------------------------------------------------------------- halo model
p("C36", "Tracer bookkeeping identities",
  "satellite_fraction + central_fraction = 1; mean_tracer_den is the spline integral of dndm times total occupation over the tracer mass range; 1-halo tracer power is exactly satellite-satellite plus central-satellite; total power is 1-halo plus 2-halo; the bias and mass averages lie between the extreme values when weights are non-negative.",
  "all HODs, grids, cosmologies",
  "Identities of linear functionals for all inputs.",
  ["src/halomod/halo_model.py:TracerHaloModel", "src/halomod/halo_model.py:TracerHaloModel.satellite_fraction"])
p("C37", "Matching the tracer density",
  "When tracer_density is given, the model's M_min is (re)solved after construction and after every update so that it always corresponds to the requested density and current parameters; giving M_min in a later update releases the density constraint; the solver never recurses forever.",
  "every history of update() calls",
  "Ranges over all histories.",
  ["src/halomod/halo_model.py:TracerHaloModel.update", "src/halomod/halo_model.py:TracerHaloModel._find_m_min"])
p("C38", "Sharp-cut density inversion brackets the requested density",
  "For an HOD with a sharp cut-off the M_min search accumulates the occupied mass function from the top: cumulative values are non-decreasing, raises NGException iff the requested density is not reachable, and otherwise interpolates on a window whose cumulative densities bracket the requested one.",
  "all mass grids, all non-negative integrands, all requested densities",
  "Index arithmetic at the ends for all sizes.",
  ["src/halomod/halo_model.py:TracerHaloModel._find_m_min"])
p("C39", "Correlation functions have one meaning of offset",
  "Every total correlation function (matter, tracer, cross) equals its 1-halo plus 2-halo parts under one convention (excess over random), for analytic and transformed profiles alike; 1-halo tracer correlation equals the satellite-satellite plus central-satellite parts.",
  "all separations, profiles, HODs",
  "Identity over all inputs and branches.",
  ["src/halomod/halo_model.py:DMHaloModel.corr_1h_auto_matter_fnc", "src/halomod/halo_model.py:TracerHaloModel.corr_1h_auto_tracer_fnc"])
p("C40", "Halo-centre power for constant bias, symmetry, and cosmology-consistent bias",
  "power_hh with a mass-independent bias b is b^2 times the input power for any mass range; it is symmetric in the two haloes; the halo bias used is that of the model's redshift.",
  "all mass ranges, bias models, redshifts",
  "All ranges.",
  ["src/halomod/halo_model.py:DMHaloModel.power_hh", "src/halomod/halo_model.py:DMHaloModel.bias"])
# ---------------------------------------------------------------- cross correlations
p("C41", "Cross-correlations are symmetric in the two tracers and reduce to auto-correlations",
  "Swapping the two tracers (with R_cs and R_sc swapped) leaves 1-halo and 2-halo cross power unchanged when both models share grid, mass function and matter power; a tracer crossed with itself reproduces its own 2-halo power.",
  "all HODs, profiles, biases on a shared grid",
  "Symmetry over all inputs.",
  ["src/halomod/cross_correlations.py:CrossCorrelations", "src/halomod/cross_correlations.py:ConstantCorr"])
# ---------------------------------------------------------------- projection
p("C42", "Projected and angular correlations are linear and normalised",
  "projected_corr_gal scales linearly with the 3D correlation; _check_p leaves a redshift distribution with unit integral; flat_z_dist integrates to one and vanishes outside; angular_corr_gal is symmetric in the two distributions and invariant under rescaling them.",
  "all correlations, distributions, grids",
  "All functions.",
  ["src/halomod/integrate_corr.py:projected_corr_gal", "src/halomod/integrate_corr.py:_check_p", "src/halomod/integrate_corr.py:flat_z_dist", "src/halomod/integrate_corr.py:angular_corr_gal"])
# ---------------------------------------------------------------- wdm
p("C43", "WDM models preserve CDM models and conserve matter",
  "Building a WDM-rescaled concentration relation does not alter the parameters of any other concentration relation; the rescaling only lowers concentrations; in the WDM halo model the smooth and halo components sum to the mean density and the mass-weighted bias of smooth plus halo matter is one.",
  "all histories of class construction; all masses and components",
  "A history property (aliasing) plus algebraic identities.",
  ["src/halomod/wdm.py:CMRelationWDMRescaled", "src/halomod/wdm.py:HaloModelWDM"])
p("C44", "Large-scale limit of the two-halo terms",
  "On scales large enough that every halo profile is unresolved (u = 1), the 2-halo tracer power is the squared effective tracer bias times the halo-centre power (both over the tracer mass range), and the 2-halo matter power is that power itself once the mass-weighted bias integrates to one.",
  "all HODs, biases, mass functions, grids and low-k flags",
  "A limit over all inputs.",
  ["src/halomod/halo_model.py:TracerHaloModel.power_2h_auto_tracer_fnc", "src/halomod/halo_model.py:DMHaloModel.power_2h_auto_matter_fnc"])
p("C45", "Separation grids and filtered spectra",
  "The separation array runs from rmin to rmax inclusive with rnum strictly increasing entries, logarithmic or linear as asked; the k grid used for halo-centre power runs evenly in log k; the filtered halo-centre spectrum is the power with a window multiplied in up to the first wavenumber where that product is not positive, and zero from there on.",
  "all rmin, rmax, rnum, hm_logk_min/max, hm_dlog10k",
  "All sizes and ends.",
  ["src/halomod/halo_model.py:DMHaloModel.r", "src/halomod/halo_model.py:DMHaloModel.k_hm", "src/halomod/halo_model.py:DMHaloModel._power_halo_centres_fnc"])
p("C46", "Tracer-matter cross power",
  "The total tracer-matter cross power is the sum of its one- and two-halo terms; where all profiles are unresolved the one-halo term is the mean host-halo mass over the mean matter density and the two-halo term is effective tracer bias times effective matter bias times the halo-centre power; the one-halo term is non-negative and never exceeds its large-scale value; for a tracer that follows the matter it is the one-halo matter power up to the density actually in haloes; centrals sit at halo centres in every two-halo term.",
  "all HODs, profiles, biases, mass functions and grids",
  "Identities and bounds over all inputs.",
  ["src/halomod/halo_model.py:TracerHaloModel.power_1h_cross_tracer_matter_fnc", "src/halomod/halo_model.py:TracerHaloModel.power_2h_cross_tracer_matter_fnc"])
p("C47", "Power functions and choice of the halo-centre spectrum",
  "The linear and nonlinear power functions reproduce their tables, and below the table continue them as the primordial power law k^n without a jump; hc_spectrum accepts exactly its four documented values and each selects the documented spectrum (filtered ones with a top-hat of 2 Mpc/h, non-negative and zero beyond the first zero); below the table the two-halo terms are proportional to the linear power.",
  "all wavenumbers, tables, spectral indices and values of hc_spectrum",
  "For every wavenumber and string.",
  ["src/halomod/halo_model.py:DMHaloModel.linear_power_fnc", "src/halomod/halo_model.py:DMHaloModel._power_halo_centres_fnc", "src/halomod/halo_model.py:DMHaloModel.hc_spectrum", "src/halomod/halo_model.py:DMHaloModel._corr_mm_base_fnc"])
p("C48", "Tracer components default to the halo's and stay consistent with each other",
  "Without tracer profile and concentration models the tracer uses the halo's; naming the halo's models explicitly changes nothing; a tracer profile is always evaluated with the tracer concentration, whether by the spectra or by its own methods; no tracer setting alters a matter statistic.",
  "all combinations of models and parameters",
  "All combinations of four optional models and four dictionaries.",
  ["src/halomod/halo_model.py:TracerHaloModel.tracer_profile", "src/halomod/halo_model.py:TracerHaloModel.tracer_concentration", "src/halomod/halo_model.py:DMHaloModel.halo_profile"])
p("C49", "Validation accepts exactly the usable configurations",
  "A model passes validation iff its separation and wavenumber ranges are non-empty and at least two grid masses lie at or above the HOD's minimum mass; then its wavenumber grid is non-empty, increasing and within the limits. The tracer mask keeps exactly the masses at or above the minimum mass.",
  "all ranges, steps, grids and minimum masses",
  "All parameter values.",
  ["src/halomod/halo_model.py:DMHaloModel.validate", "src/halomod/halo_model.py:TracerHaloModel.validate", "src/halomod/halo_model.py:TracerHaloModel._tm"])
p("C50", "Density matching without a sharp cut",
  "For an HOD with a gradual cut, asking for a tracer density either raises the dedicated exception (exactly if the density is above the attainable one) or returns a minimum mass whose density is the requested one to the optimiser's tolerance, counting all galaxies of the HOD.",
  "all HODs without sharp cut, densities, grids and optimiser runs",
  "Every run of an iterative optimiser.",
  ["src/halomod/halo_model.py:TracerHaloModel._find_m_min"])
p("C51","Results follow the current inputs, whatever was read or assigned before",
  "After any sequence of assignments to, and reads of, the attributes of a halo model (DMHaloModel, TracerHaloModel, ProjectedCF, AngularCF), every quantity read equals the one a newly built object with the same final inputs would return; reads always terminate (no circular definitions).",
  "all finite histories of assignments and reads, all attributes, all values, all functions computed by the quantities",
  "Staleness depends on the order of reads and assignments; the number of histories is unbounded and tests exercise a handful of orders.",
  ["src/halomod/halo_model.py:DMHaloModel", "src/halomod/halo_model.py:TracerHaloModel", "src/halomod/integrate_corr.py:ProjectedCF", "src/halomod/integrate_corr.py:AngularCF"])
p("C52","Components of different models do not influence each other",
  "The value of a component (bias, concentration) depends only on the cosmology and parameters it was constructed with, not on other components built earlier or later in the same process.",
  "all programs interleaving constructions and evaluations of components, all cosmologies",
  "The number of interleavings is unbounded, and every test builds its component just before using it.",
  ["src/halomod/bias.py:make_colossus_bias", "src/halomod/concentration.py:make_colossus_cm"])
p("C53","The mass function goes with the bias model",
  "A model built without naming a mass function uses the one its bias was derived from (its peak-background-split partner), a named mass function is always used, and the pair warning appears exactly if the two do not belong together; this stays so when the bias model is updated.",
  "all bias models, mass functions and sequences of updates",
  "Depends on the history of updates, which is unbounded.",
  ["src/halomod/halo_model.py:DMHaloModel.__init__", "src/halomod/halo_model.py:DMHaloModel.bias", "src/halomod/bias.py:Bias.pair_hmf"])
p("C54","Scale-dependent bias multiplies the two-halo correlation",
  "With a scale-dependent bias model the 2-halo tracer correlation at every tabulated separation is the one without it times the squared correction at that separation, whichever halo exclusion is used; for matter with force_unity_dm_bias the factor is relative to the largest tabulated separation, where the result is unchanged; each separation uses the haloes allowed at that separation.",
  "all exclusion models, corrections, grids, mass functions and biases",
  "All combinations of eight exclusion classes with arbitrary bias corrections.",
  ["src/halomod/halo_model.py:DMHaloModel._matter_exclusion", "src/halomod/halo_model.py:TracerHaloModel._tracer_exclusion", "src/halomod/halo_model.py:DMHaloModel._get_power_2h_primitive", "src/halomod/halo_model.py:DMHaloModel._get_corr_2h_auto_fnc", "src/halomod/halo_exclusion.py"])
p("C55","Updating a projected or angular model to settings equals building it with them",
"For ProjectedCF and AngularCF: constructing with keywords K and then update(**U) leaves the same stored settings, and the same refusals, as constructing with K overridden by U; in particular the separation grid, the redshift distribution and the range it covers are those of the current settings. (Found false for two settings: rnum follows rp_num, and the default redshift distribution follows zmin/zmax, only at construction.) The constructor warns exactly when the model redshift is outside the sample.",
"all keyword sets K at construction and U in an update, all real values",
"Tests construct or update a few fixed settings; equality must hold for every combination of given and omitted keywords.",
["src/halomod/integrate_corr.py:ProjectedCF.__init__","src/halomod/integrate_corr.py:AngularCF.__init__","src/halomod/integrate_corr.py:ProjectedCF.rlim","src/halomod/halo_model.py:DMHaloModel.rmax"])

p("C56","Refining the mass grid converges to the documented integrals over halo mass",
"With the mass range fixed and the mass grid refined, every mass integral the library evaluates tends to the integral over halo mass its documentation states: for each halo-exclusion model the bias-weighted pair integral (weight 1, both radii below half the separation, sum of radii below the separation, Tinker's ellipsoidal probability, or the number-matched upper mass) and the modified density; the mean tracer density, effective bias, effective mass and satellite fraction; and the one-halo power spectra and matter correlation; the two-halo power spectra of tracers and matter, and their two-halo correlations with every exclusion model; the one- and two-halo cross power spectra of tracer and matter and of two tracers; the smooth-halo and total power of the WDM model. A class and its compiled variant have the same limit although they use different quadrature rules.",
"all continuous mass functions, biases and profiles, all mass ranges, separations, wavenumbers, all eight exclusion classes, any sequence of refinements (limit as the number of masses goes to infinity)",
"A test compares two finite resolutions; a limit quantifies over all of them.",
["src/halomod/halo_exclusion.py:NoExclusion.integrate","src/halomod/halo_exclusion.py:Sphere.integrate","src/halomod/halo_exclusion.py:DblSphere_.integrate","src/halomod/halo_exclusion.py:DblEllipsoid.integrate","src/halomod/halo_exclusion.py:NgMatched.integrate","src/halomod/tools.py:spline_integral","src/halomod/halo_model.py:TracerHaloModel.mean_tracer_den","src/halomod/halo_model.py:DMHaloModel.power_1h_auto_matter_fnc","src/halomod/cross_correlations.py:CrossCorrelations.power_1h_cross_fnc","src/halomod/cross_correlations.py:CrossCorrelations.power_2h_cross_fnc","src/halomod/wdm.py:HaloModelWDM.power_auto_matter_sh"])

p("C57","Cross-correlation and WDM results follow the current inputs of all objects involved",
"After any sequence of reads and assignments on a CrossCorrelations object and on its two tracer models (cross-HOD parameters, any parameter or flag of either model), every cross-correlation quantity read is the one recomputed from the inputs last assigned on all three objects; each tracer model's own results are decided by its own inputs alone; the grids of the results are the first model's. The same holds for the WDM halo models under any sequence of parameter assignments. Every read terminates.",
"all histories of reads and assignments on the three objects, all values, all computations with the declared reads",
"The interleavings of updates to three objects sharing cached results are unbounded.",
["src/halomod/cross_correlations.py:CrossCorrelations","src/halomod/wdm.py:HaloModelWDM","src/halomod/halo_model.py:TracerHaloModel"])

p("C58","Angular correlation functions converge to Limber's integral",
"As znum and unum grow, the angular correlation function that angular_corr_gal returns at an angle tends to the documented double integral over the line of sight, 2 times the integral over distance x of p1(x) p2(x) times the integral over u of xi(sqrt(u^2 + x^2 theta^2)), with each distribution divided by its own integral over the sample, whether the distributions are given in redshift or in comoving distance; the second distribution defaults to the first; a distribution that already integrates to 1 within the documented tolerance is not rescaled.",
"all continuous correlation functions, continuous redshift or distance distributions, cosmologies with increasing differentiable distance, angles, ranges of z and u, as znum and unum go to infinity independently",
"A test fixes znum and unum; the limit quantifies over all of them, and over all correlation functions.",
["src/halomod/integrate_corr.py:angular_corr_gal","src/halomod/integrate_corr.py:_check_p","src/halomod/integrate_corr.py:AngularCF.angular_corr_gal"])

p("C59","Satellites are distributed as the halo's density profile",
"The positions Profile.populate draws for a halo have the law of the model's density profile: the probability to lie within a radius is the fraction of the halo mass (from rho) within it, exactly at each of the 1000 tabulated radii and within the neighbouring values between them; no satellite lies at the centre or outside the halo radius; every direction is equally likely (the law is unchanged by rotations and reflections about the centre) and independent of the radius; so the mean number of satellites within a radius in a populated halo is the mean number of satellites times that mass fraction.",
"all analytic profiles, masses, concentrations, centres, radii, numbers of satellites, all outcomes of the random numbers (uniform deviate and three normals per satellite), all rotations",
"A statistical test checks finite samples of one profile; the law quantifies over all draws and all profiles.",
["src/halomod/profiles.py:Profile.populate","src/halomod/profiles.py:Profile.cdf","src/halomod/tools.py:populate"])

p("C60","Profiles without closed forms are normalised and transformed numerically, halo by halo",
"For a profile that only defines its shape f (GeneralizedNFW; the transform of Moore, of Einasto with a non-default alpha, and of user subclasses), the normalisation is the integral of f(x) x^2 out to the concentration (within a stated error for any f of bounded variation) and is positive; for an array of concentrations in any order, with repeats, each halo's transform is made from the integral of x f(x) sin(kappa x)/kappa out to that halo's own concentration, exact at the smallest and largest requested wavenumber and interpolated between 100 logarithmic wavenumbers elsewhere; reordering the haloes only reorders the results; the transform never exceeds the normalisation; scalar inputs give scalars. (Found false: a single wavenumber raises.)",
"all shape functions (bounded variation / integrable), concentrations in any order and multiplicity, any tie-breaking of the sort, all positive wavenumber arrays",
"The loop depends on the order and coincidences of the concentrations, and the integral must be right for every shape function.",
["src/halomod/profiles.py:Profile._h","src/halomod/profiles.py:Profile._p","src/halomod/profiles.py:Profile._reduce","src/halomod/profiles.py:GeneralizedNFW._f"])

p("C61","Power spectra and correlation functions outside their tables",
"Evaluated below the smallest wavenumber, one-halo powers vanish when the turnover is forced and otherwise keep their last value, and two-halo powers have the shape of the linear power joined continuously; beyond the largest wavenumber no auto power is negative, and with a filtered spectrum the two-halo power is zero; beyond the largest tabulated separation every correlation function, total or term, is zero. (Found false for the totals: matter, tracer-matter, two-tracer, and tracers without an analytic self-convolution return 1.)",
"all halo models with positive increasing grids, all wavenumbers and separations outside the tables, both turnover settings, filtered and unfiltered spectra",
"Every real number outside the table, and every table; tests evaluate inside.",
["src/halomod/tools.py:ExtendedSpline","src/halomod/halo_model.py:DMHaloModel.power_1h_auto_matter_fnc","src/halomod/halo_model.py:DMHaloModel._get_power_2h_primitive","src/halomod/halo_model.py:DMHaloModel.corr_auto_matter_fnc","src/halomod/halo_model.py:TracerHaloModel.corr_auto_tracer_fnc","src/halomod/cross_correlations.py:CrossCorrelations.corr_cross_fnc"])

p("C62","Interpolation between tabulated values",
"Every table (of at least five increasing abscissae) is interpolated by the one curve through all entries that is cubic between neighbours, has continuous slope and curvature and no break at the second and last but one entry; it is twice continuously differentiable, linear in the data, exact for polynomials of degree three (also extrapolated and integrated), never strays from the straight lines joining the entries by more than a fixed multiple of the largest jump, and converges uniformly to a continuous function as uniform or logarithmic tables of it are refined, so tabulated spectra and correlations are accurate between their entries. It does not preserve sign or order: positive increasing tables can have negative, decreasing interpolants.",
"all tables and data, all abscissae, all continuous functions, all grid families with bounded step ratio",
"Tests compare a few interpolated values; uniqueness, stability and convergence range over all tables, functions and refinements.",
["src/halomod/tools.py:ExtendedSpline","src/halomod/tools.py:spline_integral","src/halomod/halo_model.py:DMHaloModel","src/halomod/profiles.py:Profile","src/halomod/integrate_corr.py:ProjectedCF"])

p("C63","Documented formulas, defaults and meanings of model parameters",
"Every bias, concentration and density profile class with a formula in its documentation computes that formula for all inputs, with the documented default for each parameter the user does not pass and the user's value for each one passed; a keyword that is not a parameter is refused; the parameters of the HODs mean what is documented (M_1: mass with one satellite; M_0: satellites exactly above it; ContinuousPowerLaw: Zehavi05 rescaled; Leauthaud11 without evolution ignores redshift). (Found false: Jing98 notation, ST99 defaults swapped, Manera10 p, Bullock01 K a factor ten, Seljak04Cosmo frozen below a tenth of the non-linear mass, Pillepich10 B3 refused, alpha of Tinker10PBSplit unused, M_1 and M_min of Zheng05, M_0 of Contreras13 unused, the density formula of Moore.)",
"all masses, peak heights, redshifts, overdensities, cosmological inputs and all sets of keyword overrides",
"Tests compare a few values at defaults; agreement with a formula must hold for all inputs and overrides.",
["src/halomod/bias.py:Bias","src/halomod/bias.py:Tinker10","src/halomod/bias.py:Tinker10PBSplit","src/halomod/profiles.py:NFW","src/halomod/profiles.py:Moore","src/halomod/concentration.py:Bullock01Power","src/halomod/concentration.py:Ludlow16Empirical","src/halomod/hod.py:Zehavi05","src/halomod/hod.py:Zheng05","src/halomod/hod.py:Contreras13","src/halomod/hod.py:ContinuousPowerLaw","src/halomod/hod.py:Leauthaud11"])

p('C64','Auto and cross power spectra are mutually consistent','The tracer-matter power never exceeds what the matter power and the tracer power allow: at every tabulated wavenumber the square of the one-halo tracer-matter power is at most the one-halo matter power times the sum of the one-halo tracer power and the shot noise (one over the mean tracer density), and the two-halo terms are perfectly correlated (the square of the cross term is the product of the auto terms) without exclusion or scale-dependent bias; likewise for two tracer populations of the same haloes, whose one-halo cross power squared is at most the product of their one-halo powers plus shot noises, for every set of correlation coefficients their numbers can have; whatever the one-halo turnover setting.','all mass functions, biases, profiles, Poisson HODs, wavenumbers, mass ranges; mass grids fine enough for any accuracy','Correlation coefficients above one appear only for particular scales and settings; fixed-parameter tests look at each spectrum separately.',['src/halomod/halo_model.py:_do_1halo_integral','src/halomod/halo_model.py:power_1h_cross_tracer_matter_fnc','src/halomod/halo_model.py:power_2h_cross_tracer_matter_fnc','src/halomod/halo_model.py:power_1h_auto_tracer_fnc','src/halomod/halo_model.py:power_1h_auto_matter_fnc'])

p('C65','The Hankel transforms converge to the exact Fourier integral','Refining the step h, hankel_transform, power_to_corr_ogata and corr_to_power_ogata converge to the spherical Fourier transform of their input: xi(r) = 1/(2 pi^2) int P(k) k^2 sin(kr)/(kr) dk in r space, P(k) = 4 pi int xi(r) r^2 sin(kr)/(kr) dr in k space. Smaller steps are documented as giving smaller intervals, so a user who halves h expects a better answer.','all continuous spectra with an integrable decreasing majorant, all tables, separations, tolerances, chunk sizes; step sizes tending to zero','The statement is a limit; tests compare one step size with one reference to a few per cent.',['src/halomod/tools.py:hankel_transform','src/halomod/tools.py:_get_sumspace','src/halomod/tools.py:power_to_corr_ogata','src/halomod/tools.py:corr_to_power_ogata'])

p('C66','Power to correlation and back is the identity','hankel_transform with the two variable names are inverse to each other: a spectrum transformed to separations and back (or a correlation function transformed to wavenumbers and back) is recovered at every wavenumber (separation), in the limit of fine steps with a chunk covering the available nodes.','all pairs (P, xi), one being the refined transform of the other, continuous, with k P(k) and r xi(r) dominated by decreasing integrable functions; all wavenumbers, separations, tolerances','A round trip on one grid only shows agreement to the accuracy of that grid, and a wrong constant in both directions can cancel.',['src/halomod/tools.py:hankel_transform'])

p("C67","Settings and keywords","Every setting of a halo model is stored with its documented type or refused: component parameters are dictionaries (an empty value means none), model names are resolved in the right family and None means 'off' only where documented, numbers and switches are converted. Reading a setting and assigning it back changes nothing. Unknown keywords are always refused. A model built with keywords equals the default model updated with them. get_halomodel works with its default fast settings.","all values passed for all settings, all keyword dictionaries","All Python values for all settings and all combinations of keywords.",["src/halomod/halo_model.py:DMHaloModel.__init__","src/halomod/halo_model.py:TracerHaloModel.update","src/halomod/functional.py:get_halomodel","src/halomod/wdm.py:HaloModelWDM.__init__"])
p("C68","Rescaled, added and slightly changed spectra","Rescaling the power spectrum given to the Hankel transform rescales the correlation function by the same factor, adding spectra adds the correlation functions, and spectra that approach each other at every wavenumber have correlation functions that approach each other. (Found false in general: the stopping rule has an absolute tolerance, so faint spectra are summed over the first chunk of nodes only.)","all spectra, separations, steps, chunk sizes and tolerances; all positive factors","Whether a sum stops early depends on the spectrum, its amplitude and the separation; a few test spectra cannot cover them.",["src/halomod/tools.py:hankel_transform","src/halomod/tools.py:_get_sumspace","src/halomod/halo_model.py:DMHaloModel._get_corr_2h_auto_fnc"])
p("C69","The concentration of warm-dark-matter models","In a WDM halo model the concentration of haloes and tracers follows the relation chosen, and a relation named with the suffix 'WDM' is lowered below it by the documented factor with the half-mode mass of the model, for the tracers as for the haloes; a relation named without the suffix, in particular the default one, is used as it is, without the factor. (Found false: a rescaled relation of the tracers uses the half-mode mass 1000; names with the suffix are refused for tracers.)","all names, classes and parameters given for the two concentrations, all half-mode masses, masses and redshifts","All names and parameter dictionaries, masses and redshifts; tests look at one class and one mass.",["src/halomod/wdm.py:CMRelationWDMRescaled","src/halomod/wdm.py:HaloModelWDM","src/halomod/halo_model.py:TracerHaloModel.tracer_concentration"])
p("C70","Two-halo power with exclusion or scale-dependent bias","With halo exclusion or scale-dependent bias the two-halo power at each tabulated wavenumber is the transform of the two-halo correlation function that the model reports, on every scale and for every choice of wavenumber grids, and approaches the linear biased power on the largest scales. (Found false: entries are overwritten according to the other wavenumber grid, or the computation fails; and the power is exactly zero at the smallest and largest wavenumbers.)","all halo models, exclusion classes, scale-dependent biases and wavenumber grids; matter and tracers","All grids, classes and wavenumbers; tests compare at most one default model.",["src/halomod/halo_model.py:DMHaloModel._get_power_2h_auto_fnc","src/halomod/halo_model.py:DMHaloModel._get_corr_2h_auto_fnc","src/halomod/tools.py:hankel_transform"])
p("C71","Auto power spectra are not negative","The auto power spectra of matter and of tracers (one-halo and two-halo terms) are not negative at any wavenumber, whatever the mass function, bias, occupation, profile and resolution, as long as the mass function and the linear power are not. (Found false: the spline through non-negative samples can be negative between wavenumbers and, with the large-scale turnover, in the one-halo mass integral.)","all halo models, HODs, profiles, wavenumbers and mass tables","All tables, wavenumbers and occupations; a test can only look at the wavenumbers of one model.",["src/halomod/halo_model.py:DMHaloModel._get_power_2h_primitive","src/halomod/halo_model.py:DMHaloModel._do_1halo_integral","src/halomod/halo_model.py:DMHaloModel.power_1h_auto_matter_fnc","src/halomod/halo_model.py:TracerHaloModel.power_1h_auto_tracer_fnc"])
p("C72","Integer-typed masses and separations","Masses, separations or output radii given as integers give the values of the same numbers in floating point: occupations, pairs and populated catalogues, correlation functions of a halo model whose separations are given as an array, power_to_corr, projected correlations and concentrations. (Found false: satellites of Zheng05, satellite sources of Spinelli19, all correlation functions, projected correlations and Ludlow16 concentrations are cut to whole numbers.)","all HOD classes and parameters, masses, spectra, tables and separations of either type","The result depends on the type of the argument for every value; tests pass floats.",["src/halomod/hod.py:Zheng05","src/halomod/hod.py:Spinelli19","src/halomod/hod.py:Zehavi05","src/halomod/tools.py:power_to_corr","src/halomod/tools.py:ExtendedSpline","src/halomod/tools.py:populate","src/halomod/integrate_corr.py:projected_corr_gal","src/halomod/concentration.py:Ludlow16","src/halomod/halo_model.py:DMHaloModel.r"])
p("C73","One halo at a time: arrays, numbers and order","Asking for many masses at once gives for each mass what asking for it alone gives, whatever the other masses and their order, and a plain number gives what the array with that one entry gives: occupations, numbers, pair counts and scatters of every HOD, mass-dependent bias, concentrations, and the self-convolution of profiles. (Found false: Bullock01 concentrations of masses that are not in ascending order are those of other haloes; plain Python numbers raise for satellites of Zheng05, satellite sources of Spinelli19 and, at the minimum mass, satellites of Tinker05; numbers of any kind raise for Leauthaud11 and Seljak04Cosmo.)","all HOD classes and parameters, arrays of every length, order and content, Python numbers, numpy scalars and arrays of dimension 0","Code with masks and whole-array guards can depend on companions in ways only particular arrays show; the statement is about every array.",["src/halomod/hod.py:Zehavi05","src/halomod/hod.py:Zheng05","src/halomod/hod.py:Tinker05","src/halomod/hod.py:Spinelli19","src/halomod/hod.py:Leauthaud11","src/halomod/hod.py:HODPoisson","src/halomod/bias.py:Seljak04Cosmo","src/halomod/concentration.py:Bullock01","src/halomod/profiles.py:NFW._l"])
p("C74","A higher mass threshold gives rarer, more massive, more biased tracers","With the default HOD (Zehavi05), or with Zheng05, whose scatter sig_logm smooths the threshold, and satellites only beside a central (central=True): raising M_min lowers mean_tracer_den and raises bias_effective_tracer, mass_effective and (for alpha > 0) satellite_fraction; lowering M_1 raises all four. (With central=False, the default, satellites also live below the threshold and raising M_min can lower the effective bias.)","the Zehavi05 class with central=True, all parameters with M_min inside the mass range; the Zheng05 class with central=True, all parameters with sig_logm > 0 and alpha > 0 (for the satellite fraction, M_0 inside the mass range); all positive mass functions and all halo biases that increase with mass, on mass tables that are fine enough","A test compares two parameter values on one mass function; the statement is about all of them.",["src/halomod/halo_model.py:TracerHaloModel.mean_tracer_den","src/halomod/halo_model.py:TracerHaloModel.bias_effective_tracer","src/halomod/halo_model.py:TracerHaloModel.mass_effective","src/halomod/halo_model.py:TracerHaloModel.satellite_fraction","src/halomod/hod.py:Zehavi05","src/halomod/hod.py:Zheng05"])
p("C75","How accurate the averages are for a given dlog10m","On the package's mass grid (step dlog10m = d, at least five steps) the integrals over halo mass are within (41 M + V) ln(10) d of the true integrals up to 10**Mmax, where M bounds mass times integrand and V its total variation; so mean_tracer_den, bias_effective_tracer, mass_effective, satellite_fraction, the effective matter bias and the one-halo power of matter and of tracers have explicit error bounds that fall linearly with d, for any HOD with or without jumps. For smooth integrands the error up to the largest mass of the table is of second order; the missing last step before Mmax keeps the first order.","all mass ranges and steps, all integrands of bounded variation (mass functions, biases, profiles, occupations with jumps), every wavenumber","A test sees one mass function at a few resolutions; a guarantee for a resolution needs all of them.",["src/halomod/tools.py:spline_integral","src/halomod/halo_model.py:TracerHaloModel.mean_tracer_den","src/halomod/halo_model.py:TracerHaloModel.bias_effective_tracer","src/halomod/halo_model.py:DMHaloModel.bias_effective_matter","src/halomod/halo_model.py:DMHaloModel._do_1halo_integral"])
p("C76","Amplitudes of the mass function, the bias and the spectra","Multiplying the halo mass function by a constant A multiplies mean_tracer_den by A, divides the one-halo tracer spectra (and one plus the one-halo correlations computed from the profiles) by A, multiplies the one-halo matter spectrum by A, and leaves bias_effective_tracer, mass_effective, satellite_fraction, central_fraction, the effective matter bias, the one-halo cross spectrum and the two-halo auto spectra alone. Multiplying the halo bias by B multiplies the effective biases by B and the two-halo spectra by B squared and leaves everything else alone; with force_unity_dm_bias the two-halo matter spectrum does not change. Multiplying the power of halo centres by P multiplies the two-halo spectra by P. All this holds exactly on any mass and wavenumber table, inside and beyond it. The two-halo cross spectrum is multiplied by A: its matter factor is not divided by the density in halos.","all mass and wavenumber tables, mass functions, biases, occupations, profiles and spectra; all positive constants; no exclusion and no scale-dependent bias","Every amplitude and every model: a test compares two models.",["src/halomod/halo_model.py:TracerHaloModel.mean_tracer_den","src/halomod/halo_model.py:TracerHaloModel.bias_effective_tracer","src/halomod/halo_model.py:DMHaloModel.bias_effective_matter","src/halomod/halo_model.py:DMHaloModel._get_power_2h_primitive","src/halomod/halo_model.py:TracerHaloModel.power_2h_cross_tracer_matter_fnc"])
p("C77","More concentrated haloes","For NFW, Hernquist and cored NFW haloes of the same mass (no bloating), a larger concentration, whether given or from the concentration-mass relation, gives a strictly larger cdf at every radius short of the halo radius; a density rho that is larger inside exactly one radius r0 and smaller from r0 to the halo radius; and a strictly larger Fourier transform u at every wavenumber with k R <= pi. For haloes of any two masses, and also for Moore and Einasto profiles, the halo with the larger concentration holds the larger share of its mass inside the same fraction of its radius (cdf with coord=s), so that share falls with mass wherever the concentration-mass relation falls. The density shapes of the generalised NFW and of the power law with exponential cut-off obey the same law. A constant profile does not depend on the concentration.","all profiles named, positive masses, concentrations, radii, fractions of the radius and wavenumbers up to pi over the radius; all Einasto and generalised-NFW indices; all concentration-mass relations","The ordering must hold for every pair of concentrations, every radius and every mass: a test samples pairs.",["src/halomod/profiles.py:Profile.cdf","src/halomod/profiles.py:Profile.rho","src/halomod/profiles.py:Profile.u","src/halomod/profiles.py:NFW._f","src/halomod/profiles.py:Hernquist._f","src/halomod/profiles.py:CoredNFW._f","src/halomod/profiles.py:Moore._f","src/halomod/profiles.py:Einasto._f","src/halomod/profiles.py:GeneralizedNFW._f","src/halomod/profiles.py:PowerLawWithExpCut._f"])
p("C78","Units of mass and length","Nothing observable depends on the units: given the same mass function, bias, profiles, densities and spectra converted to other units of mass (mu of which make an old one) and of length (l of which make an old one), with the masses of the HOD converted, mean_tracer_den is divided by l^3, mass_effective grows by log10(mu), bias_effective_tracer, bias_effective_matter, satellite_fraction and central_fraction stay, every power spectrum P(k) becomes l^3 P(l k), every correlation function xi(r) becomes xi(r/l), and halo exclusion removes the same pairs. The HODs Zehavi05, Zheng05, Contreras13, Tinker05, Zehavi05WithMax, Zehavi05Marked, ContinuousPowerLaw and Constant are converted by adding log10(mu) to their logarithmic masses. (Found false in part: the one-halo tracer spectra start at the logarithm of the minimum mass, taken as a mass, which lies in the mass table in some units; the transform's absolute tolerance sees the unit of length; Spinelli19 has a hard-coded mass and cannot be converted; virial_velocity has G in fixed units and Ludlow16Empirical a hard-coded mass.) Leauthaud11, the halo profiles, the concentration relations defined by peak height or by a mass scale, the biases and the sampling of satellites are converted in the same sense.","all halo models (mass, wavenumber and separation tables, mass functions, biases, profiles, occupations, spectra), all positive factors mu and l, all exclusion models and scale-dependent biases, all splines that depend only on the shape of their abscissae and linearly on their ordinates","a test fixes one set of units; a hard-coded mass or length, or a logarithm used as a mass, shows only when the same physics is written in others, and only where the offending number falls inside the tables",["src/halomod/halo_model.py:TracerHaloModel","src/halomod/halo_model.py:DMHaloModel._do_1halo_integral","src/halomod/halo_exclusion.py:Exclusion","src/halomod/hod.py:HOD","src/halomod/hod.py:Spinelli19","src/halomod/tools.py:hankel_transform","src/halomod/tools.py:spline_integral","src/halomod/tools.py:ExtendedSpline"])
p("C79","Small changes of the inputs","The averages and spectra depend continuously on the mass function, bias, occupation and profiles, with explicit constants. On the package's mass table with the package's spline an integral over halo mass changes by at most A times the largest change of (mass times integrand) at a tabulated mass, with A = (number of masses + 40) dlog10m ln(10), whatever the lower limit. So if m dn/dm N(m) is changed by at most e at each tabulated mass, mean_tracer_den changes by at most A e; while A e is below it, bias_effective_tracer, satellite_fraction, central_fraction and 10**mass_effective change by at most A (d + |value| e)/(density - A e), with d the largest change of their own integrand. Likewise the effective matter bias, the one-halo matter and tracer spectra and, with 2 A for A, the root of the two-halo spectra over that of halo centres. A relative error of e in each of mass function, occupation and bias gives relative errors of order 2e and 3e.","all pairs of models on one mass table (at least five masses, any step, any range), with any mass functions, biases, occupations and profiles; every tabulated wavenumber","Continuity is a statement about all pairs of models; a spline that overshoots or an ill-conditioned quotient shows only for particular ones.",["src/halomod/tools.py:spline_integral","src/halomod/halo_model.py:TracerHaloModel.mean_tracer_den","src/halomod/halo_model.py:TracerHaloModel.bias_effective_tracer","src/halomod/halo_model.py:TracerHaloModel.mass_effective","src/halomod/halo_model.py:TracerHaloModel.satellite_fraction","src/halomod/halo_model.py:DMHaloModel.bias_effective_matter","src/halomod/halo_model.py:DMHaloModel._do_1halo_integral","src/halomod/halo_model.py:DMHaloModel._get_power_2h_primitive"])
p("C80","The mass range of the table","Mmin, Mmax and dlog10m are numerical settings: with the same physics on two tables, where no tracers live between the two lower ends (or both reach below the cut of the occupation) and mass times integrand falls at least like a power p of mass beyond the lower of the two upper ends, mean_tracer_den on one table is within e = (41 M + V)(d + d') ln(10) + t/p of that on the other, where M and V bound mass times integrand and its variation and t is its bound at that end; bias_effective_tracer, satellite_fraction and 10**mass_effective accordingly, while e is below the density; and the effective matter bias and the one-halo power of matter and of tracers when Mmax is raised. So raising Mmax changes the density by two mesh errors and a tail that falls like 10**(-p Mmax).","all pairs of tables of at least five steps, all mass functions, biases, profiles and HODs whose integrands have bounded variation and such a fall-off","Tests compare two ranges; that results do not depend on the range is a statement about all of them.",["src/halomod/halo_model.py:TracerHaloModel.mean_tracer_den","src/halomod/halo_model.py:TracerHaloModel.bias_effective_tracer","src/halomod/halo_model.py:TracerHaloModel.mass_effective","src/halomod/halo_model.py:DMHaloModel.bias_effective_matter","src/halomod/halo_model.py:DMHaloModel._do_1halo_integral","src/halomod/tools.py:spline_integral"])
if __name__ == "__main__":
    out = os.path.join(os.path.dirname(os.path.abspath(__file__)), "..", "properties.jsonl")
    with open(out, "w") as f:
        for d in P:
            f.write(json.dumps(d) + "\n")
    print(len(P))
