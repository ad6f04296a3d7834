{
 "C01": [
  "proved",
  "All HOD classes. Finding: Leauthaud11 puts the factor nc inside its own satellite function without declaring it, so central=True yields nc^2 (C01_leauthaud_factor_twice). Spinelli19 outside its counts range is excluded from the real-number model and treated in C05."
 ],
 "C02": [
  "proved",
  "Marks included. Finding: with central=True ss_pairs is not the pair count of the conditional joint law unless nc is 0 or 1 (C02_ss_pairs_conditional_iff)."
 ],
 "C03": [
  "proved",
  "Finding: Contreras13 may exceed one central per halo."
 ],
 "C04": [
  "partial",
  "Missing because false: the satellite scatter scales with sqrt(A), not A (C04_sigma_satellite_not_scaling)."
 ],
 "C05": [
  "partial",
  "Missing because false: Tinker05 just below 10**M_min is NaN, Spinelli19 outside its counts range is inf/NaN; both refutations are theorems about an IEEE-like model with overflow. Non-negativity of every occupation, number, pair function and scatter of every class is C05_nonneg (non-negative amplitudes, reals)."
 ],
 "C06": [
  "partial",
  "Missing because false: mmin changes after the first occupation call (C06_mmin_depends_on_history)."
 ],
 "C07": [
  "proved",
  "Serial and process-pool branch; the pool branch loses the satellite positions (C07_pool_positions_lost), which the row/label accounting of C07 does not cover."
 ],
 "C08": [
  "proved",
  "Serial branch; the pool branch has the same halo column (C07_pool_same_bookkeeping)."
 ],
 "C09": [
  "partial",
  "Missing because false: galaxies more than a box length outside stay outside; pool branch returns uninitialised positions. For the serial branch the statement is proved for the whole returned catalogue: every row is within the virial radius of the halo its row names (C09_catalogue), also modulo the box and inside the box when all haloes are and none is larger than the box (C09_catalogue_box)."
 ],
 "C10": [
  "partial",
  "Missing because false: with central=True and a gradual central occupation populate applies the central factor twice (C10_zheng_half)."
 ],
 "C11": [
  "proved",
  "hankel_transform (the generic chunked routine); real arithmetic, user function may return NaN."
 ],
 "C12": [
  "partial",
  "Missing because false: power_law extensions of negative data are identically zero, and of data that are not an exact power law do not join at the boundary; integer arrays are truncated."
 ],
 "C13": [
  "partial",
  "Missing because false: a limit equal to 0 is ignored with log=False."
 ],
 "C14": [
  "proved",
  "Including the tabulated-power extrapolation (pfunc)."
 ],
 "C15": [
  "proved",
  ""
 ],
 "C16": [
  "proved",
  ""
 ],
 "C17": [
  "proved",
  ""
 ],
 "C18": [
  "partial",
  "Missing because false: with a minimum mass DblSphere/DblEllipsoid integrate the inner mass over the whole grid (C18_dblsphere_xmin, C18_xmin_not_noexclusion). Ellipsoid density modification proved as the trapezoid value."
 ],
 "C19": [
  "proved",
  "n>=3 for Simpson, n>=2 for trapezoid (the code's loops need that many)."
 ],
 "C20": [
  "partial",
  "Missing because false: even grid sizes (DblSphere_) and DblEllipsoid_.integrate use other quadratures than the plain classes."
 ],
 "C21": [
  "partial",
  "Missing because false: the last entry, which should be the whole integral, drops its last sample for an odd number of samples (C21_cumsimps_last) and ignores the last interval's end for an even number (C21_cumsimps_last_even)."
 ],
 "C22": [
  "proved",
  "No minimum mass; mass-only bias for monotonicity in r. Order of the models: C22_double_bounds, C22_density_order, C22_ng_grows."
 ],
 "C23": [
  "partial",
  "Missing because false: Moore.scale_radius raises and Moore's virial radius is not at its concentration."
 ],
 "C24": [
  "proved",
  "NFW, Hernquist, Moore, Constant, CoredNFW, Einasto, power law with cut-off; the volume integral for every profile with the Exact interface (NFW, Hernquist, Constant, CoredNFW)."
 ],
 "C25": [
  "partial",
  "Missing because false: norm=None integrates to m*rho(z)/rho(0) (C25_norm_none_iff); Constant.rho and scalar calls raise."
 ],
 "C26": [
  "partial",
  "Proved for the analytic profiles and for the power law with exponential cut-off (C26_powerlaw*); Einasto's interpolated transform pairs haloes wrongly, the Meijer-G ones permute wavenumbers, generic numeric shape handling raises."
 ],
 "C27": [
  "partial",
  "Missing because false: beyond the virial radius cdf exceeds 1; calls without a mass raise."
 ],
 "C28": [
  "proved",
  "Density, Fourier transforms (NFW, Hernquist), self-convolutions; finding: HernquistInf lam is 4 times too large."
 ],
 "C29": [
  "proved",
  "Closed form equals the self-convolution integral."
 ],
 "C30": [
  "partial",
  "Missing because false: an explicit Duffy08 parameter equal to 0 is ignored; a failed non-linear-mass search gives concentration 0; Ludlow16Empirical is NaN at z=8."
 ],
 "C31": [
  "proved",
  "Ludlow16: non-empty table (an empty table raises)."
 ],
 "C32": [
  "proved",
  ""
 ],
 "C33": [
  "proved",
  "Continuous integrals over peak height."
 ],
 "C34": [
  "proved",
  "Positivity of Tinker10 for overdensities 100..3200."
 ],
 "C35": [
  "proved",
  ""
 ],
 "C36": [
  "partial",
  "Missing because false: for Zehavi05WithMax and Zehavi05Marked the mass integrals use a central occupation of one (C36_withmax_counts_absent_centrals, C36_marked_ignores_amplitude); 1-halo integrals pass log M_min as a mass. C36_mesh_averages: for every HOD class the averages tend to values inside the documented ranges, without assumptions on quadrature weights."
 ],
 "C37": [
  "proved",
  "State machine over every history of updates, with failures; direct attribute assignment is outside the claim and refuted (C37_assignment_stale)."
 ],
 "C38": [
  "partial",
  "Missing because false: densities below the one above the second largest grid mass are extrapolated; exactly the largest density raises IndexError; scipy>=1.14 raises AttributeError always."
 ],
 "C39": [
  "partial",
  "Missing because false: transformed matter and cross correlations are one too large; extra central factor for smooth HODs."
 ],
 "C40": [
  "partial",
  "Missing because false: the bias component is evaluated at redshift 0 (C40_bias_ignores_redshift); single masses raise."
 ],
 "C41": [
  "proved",
  ""
 ],
 "C42": [
  "partial",
  "Additivity only for slopes that do not matter; normalisation and rescaling only up to the code's 1% tolerance (refuted beyond). The cut of the line-of-sight integral, its integrand, Limber's equation and the redshift/distance choice are C42_theta_peak, C42_theta_cut, C42_projected_integrand, C42_projection_is_line_of_sight, C42_limber, C42_redshift_or_distance. The 1000-point rule is one member of a family that converges to the integral from the cut to the limit (C42_projection_converges), and for a non-negative, non-increasing correlation the cut loses at most 4.1% of rp*xi(rp) (C42_inner_cut). Where the correlation drops from a positive value to exactly zero between two input separations the projected correlation is NaN (C42_projected_drop_to_zero)."
 ],
 "C43": [
  "partial",
  "Missing because false: building a WDM relation adds its parameters to the base's defaults; concentrations rise beyond z=1.54; large-scale power exceeds the linear one."
 ],
 "C44": [
  "partial",
  "On a finite grid the code's Simpson value of the bias appears instead of bias_effective_tracer (a spline integral) for tracers without a cut; the exact statement holds in the limit of fine mass grids for every HOD (C44_large_scale_limit; C44_mesh_large_scale_limit on the package's own mass grid and for HODs with steps). Missing because false: with exclusion or scale-dependent bias low wavenumbers are overwritten with one power of the bias (C44_low_k_overwrite)."
 ],
 "C45": [
  "proved",
  ""
 ],
 "C46": [
  "partial",
  "Missing because false: the matter factor is the bias integral over the mean density whatever force_unity_dm_bias says (C46_two_halo_consistent_iff); the tracer auto term smears centrals with the profile (C46_centrals_not_smeared)."
 ],
 "C47": [
  "partial",
  "Missing because false: filtered-nl uses radius 3; a filtered spectrum jumps at the first wavenumber unless the window is 1 there; _corr_mm_base_fnc is None for filtered-lin."
 ],
 "C48": [
  "partial",
  "Missing because false: a tracer concentration given without a tracer profile is ignored by the tracer profile's own methods (C48_concentration_alone)."
 ],
 "C49": [
  "partial",
  "Missing because false: non-positive scalar separations and any array of separations are accepted (C49_separations_unchecked); one remaining mass is rejected."
 ],
 "C50": [
  "partial",
  "Missing because false: convergence is not checked, the start value must be valid, Contreras13 galaxies below M_min are not counted."
 ],
 "C51": [
  "partial",
  "Missing because false: force_unity_dm_bias is a plain attribute, so changing it leaves ten matter quantities stale (C51_force_unity_is_stale, C51_untracked_dependents); proved for every history that does not assign it. Assumes hmf's documented caching decorators."
 ],
 "C52": [
  "partial",
  "Proved for every program: native components are isolated; a colossus-backed component evaluates in the cosmology of the colossus-backed component built last (finding C52_second_model_interferes: so it changes when another model is built); it is right in programs that use one cosmology. colossus itself is a function of its global cosmology."
 ],
 "C53": [
  "partial",
  "Proved: pairing at construction, explicit mass function wins, when the warning appears. Findings: the pairing is not redone on update (C53_update_keeps_mass_function, C53_update_unpairs), and the default bias Tinker10 always warns because it declares no partner (C53_warning)."
 ],
 "C54": [
  "partial",
  "For all eight exclusion classes the corrected spectrum of each separation is the uncorrected one times the squared correction (C54_tracer_spectrum, C54_matter_spectrum: no assumption on the transform). That the correlation is rescaled likewise is false of the code: the transform stops on an absolute tolerance (C54_tolerance_breaks, a full model with the transform of the code); it holds wherever both sums over nodes end after as many chunks (C54_code_partial). Assumes the interpolating spline is linear in its data (proved of the cubic spline in C62) and the power-law fit follows a rescaling; the correction must not vanish and the linear power be non-zero at the first wavenumber. C54_density: the density every class uses is the documented pair integral."
 ],
 "C55": [
  "partial",
  "Missing because false: rnum is taken from rp_num, and the default distribution from zmin/zmax, only at construction (C55_projected_stale, C55_angular_stale_range); proved: exactly when the two ways agree (C55_projected_update_iff, C55_angular_update_iff), all other settings and refusals always agree. hmf's update is modelled as assignment through the setters."
 ],
 "C56": [
  "proved",
  "Two families. C56_mesh_*: the grid of hmf, 10**np.arange(Mmin, Mmax, dlog10m), whose last mass moves with dlog10m and stays below 10**Mmax, as dlog10m tends to 0; mass function, bias, profiles and occupations may have jumps (bounded, continuous except at countably many masses), so steps of the HOD inside the range are covered; C56_mesh_every_hod(_power) discharges this for every HOD class and C56_mesh_default for the package default Zehavi05; C56_mesh_tracer_matter_power, C56_mesh_cross_power and C56_mesh_wdm cover the tracer-matter cross power, the power of two different tracers and warm dark matter on the same grid. The spline is assumed to integrate like the broken line up to a multiple of the step (SplQuad, proved of the cubic spline: C62_integral_jumps). The other C56_* theorems: n+2 masses evenly spaced in log mass over a fixed closed range and continuous inputs (SplConv, proved of the cubic spline in C62). Cross power: the two models share the mass range and no pair count is NaN. Two-halo correlations with exclusion: HODs without a sharp cut, and convergence at every separation at which the transform is continuous at the limiting spectrum; for the transform of the code this holds unless its stopping test is met exactly on its boundary (C56_code_transform, C68_continuous)."
 ],
 "C57": [
  "proved",
  "Assumes hmf's documented caching, including that quantities reading a sub-framework depend on its parameters. The two private limits of the separation table are excluded; re-assigning the private dictionaries _halo_model_1_params/_halo_model_2_params after construction is not modelled. Finding: in WDM models five cached matter quantities depend on the untracked force_unity_dm_bias (C57_wdm_untracked), like the ten of C51."
 ],
 "C58": [
  "proved",
  "xi continuous on r>0, distributions continuous on the sample, dx/dz the positive continuous derivative of h\u00b7distance; the integral of each distribution is neither 0 nor exactly on the tolerance of the normalisation check. The limit is over znum and unum going to infinity independently, with the ranges of z and u fixed (the truncation of u is the code's own)."
 ],
 "C59": [
  "proved",
  "Assumes that the interpolating spline of the inverse cdf through the code's own table increases (Shape.InverseIncreasing; shown for piecewise-linear interpolation; scipy's cubic spline does not guarantee it), no bloating, and an exact cdf vanishing at 0 (NFW, Hernquist, CoredNFW, Constant). The random generator is its documented law."
 ],
 "C60": [
  "partial",
  "Missing because false: all wavenumbers equal (in particular one wavenumber and one halo) raise (C60_single_wavenumber); one zero is missing from the break points (C60_break_points), harmless for an exact integrator. quad is taken as exact. The error between the 100 tabulated wavenumbers (C60_transform_accuracy) and of the normalisation of every halo in an array (C60_norm_array_unimodal) is bounded explicitly with the cubic spline of C62."
 ],
 "C61": [
  "partial",
  "Missing because false: totals beyond the largest tabulated separation are 1 for matter, tracer-matter, two tracers and tracers without analytic self-convolution (C61_matter_correlation_far, C61_cross_correlation_far, C61_two_tracers_far, C61_tracer_correlation_far)."
 ],
 "C62": [
  "proved",
  "The model is the element of the space of cubic splines with FITPACK's knots (all data points but the second and last but one) that interpolates the data; that FITPACK computes it is trusted. Rounding is not modelled. Degree-1 splines (profiles.py:863, 953) and the smoothing spline (tools.py:543) are other functions. Fewer than five points: the polynomial through them (scipy refuses fewer than four)."
 ],
 "C63": [
  "partial",
  "False in the code for the classes and parameters named in the property (refutations: C63_jing98_notation, C63_st99_defaults_swapped, C63_manera10_default_differs, C63_bullock01_K, C63_seljak04Cosmo_frozen, C63_pillepich10_B3, C63_tinkerPB_alpha_unused, C63_zheng_M1, C63_zheng_Mmin, C63_contreras_M0, C63_moore_formula); proved for all others, and for those classes with the actual defaults. hmf's Component.__init__ (outside the repository) is modelled as documented there: unknown keywords refused, defaults updated. Duffy08 is C30_duffy_*; formulas given only by citation (Maccio07, Ludlow16) are not claimed, Ludlow16Empirical is compared with equations C1-C6 transcribed from the cited paper."
 ],
 "C64": [
  "partial",
  "Missing because false: the default one-halo turnover is applied to the auto terms only, so on large scales both vanish while the cross term does not (C64_turnover_breaks_bound), and the two-halo cross power exceeds the geometric mean of the auto terms wherever the tracer profile is resolved (C64_two_halo; C64_mesh_turnover_breaks_bound, C64_mesh_two_halo and C64_default_two_halo: the same on the package's mass grid, for occupations with steps, in particular the default HOD). Proved with the turnover off in the limit of fine mass grids (the spline quadrature on a fixed grid need not be positive): for occupations continuous over the mass range (C64_one_halo_bound_partial) and, on the mass grid the package makes, for occupations with jumps inside it (C64_mesh_one_halo_bound_partial), in particular the default HOD (C64_default_partial). Two tracers: the two-halo terms are perfectly correlated exactly, on every grid (C64_two_tracers_two_halo); the one-halo bound with the turnover off, fine grids, also for occupations that jump (C64_mesh_two_tracers_one_halo_partial). C64_default_* are for Zehavi05, C64_zheng_* for Zheng05."
 ],
 "C65": [
  "partial",
  "Missing because false: with a fixed chunk size and a positive absolute tolerance (the defaults) the result of hankel_transform tends to zero as h tends to zero, for every spectrum (C65_refining_gives_zero, C65_chunk_matters): the first chunk collapses onto the origin and its smallness is taken for convergence; and power_to_corr_ogata ends up integrating the tabulated range only, ignoring the documented extension above it. Proved: convergence of hankel_transform to the exact transform when the chunk covers the available nodes, in r and k space, and convergence of power_to_corr_ogata and corr_to_power_ogata to the integral over the tabulated range with the extension below it. Real arithmetic; convergence, no rate."
 ],
 "C66": [
  "proved",
  "For every pair of transformable functions; C66_worked_pair is a closed-form pair satisfying all hypotheses. Real arithmetic."
 ],
 "C67": [
  "partial",
  "Missing because false: 0, False, '' and [] pass for parameter dictionaries (C67_params_not_checked), any non-empty text turns a switch on (C67_switch_text), update(hod_params=None) raises although None is the documented default (C67_update_none_raises), and the default fast settings of get_halomodel name options that no longer exist, so no model can be built from them (C67_fast_kwargs, for any hmf that does not know halomod's old names). Construction equals default-plus-update for dictionaries in hod_params and no tracer density (C37 for that). hmf's look-up of classes, assignment and update are externals, hmf's own setters are not modelled."
 ],
 "C68": [
  "partial",
  "Missing because false: with an absolute tolerance (1e-8 by default) every small enough spectrum is summed over the first chunk only (C68_faint_first_chunk), so faint copies of a spectrum are not transformed into faint copies (C68_scaling_breaks, C68_scaling_breaks_here with the settings of the two-halo terms). Proved: C68_value identifies the transform with the modelled loop; it is linear wherever the sums end after as many chunks, homogeneous with a purely relative tolerance, a brighter copy never uses fewer nodes, and it is continuous in the spectrum unless the stopping test is met exactly on its boundary. Real arithmetic; no NaN in the spectrum."
 ],
 "C69": [
  "partial",
  "Missing because false: a rescaled relation of the tracers uses the keyword m_hm, 1000 by default, not the half-mode mass of the model (C69_tracer_half_mode), and cannot be named (C69_tracer_names). Proved: names with the suffix are lowered by the documented factor with the model's half-mode mass (C69_named); names without it, the default included, are used as they are (C69_default_not_rescaled; such a relation may still know about the dark matter through the variance of the density field); tracers without a relation of their own follow the haloes. hmf's registry of names is a parameter."
 ],
 "C70": [
  "partial",
  "Missing because false: with a halo-model wavenumber below 1e-2 the result is overwritten at the wrong places or fails (C70_low_wavenumbers), and with the transform of the code the power is exactly zero at small and large wavenumbers (C70_zero_at_ends, C70_ends_met). Proved: otherwise the power is the transform of the reported correlation for every exclusion class and scale-dependent bias."
 ],
 "C71": [
  "partial",
  "Missing because false: the two-halo power can be negative between wavenumbers (C71_negative_between_wavenumbers) and the one-halo power on a fixed mass table (C71_one_halo_negative). Proved: the two-halo powers without exclusion at every tabulated wavenumber and outside the table, and the one-halo powers in the limit of a fine mass table, for every HOD."
 ],
 "C72": [
  "partial",
  "Missing because false: integer input is cut to whole numbers by Zheng05 (C72_zheng_floor, C72_zheng_populate), Spinelli19 satellite sources (C72_spinelli), every tabulated correlation function (C72_correlation_truncated), power_to_corr, projected_corr_gal and Ludlow16. Proved: all other HOD classes are independent of the type."
 ],
 "C73": [
  "partial",
  "Missing because false: C73_bullock01_descending, C73_numbers_raise, second half of C73_seljak04Cosmo_partial. Proved for arrays of every length and order: all public methods of every HOD class (C73_hod_arrays), Seljak04Cosmo, the NFW self-convolution with its whole-array guards; numbers of each kind wherever the code accepts them. Ludlow16: C30 (the scalar branch raises where the array branch clamps). Numerically normalised profiles depend on their companions within the bounds of C60. Numpy semantics of masks, broadcasting and scalars are modelled in Model/Batch.lean as documented by numpy."
 ],
 "C74": [
  "proved",
  "Zehavi05: C74_threshold, C74_satellites; Zheng05: C74_zheng_threshold, C74_zheng_satellites. For every pair of parameter values the inequalities hold on all mass tables with a small enough step. C74_without_condition_fails is the finding for central=False."
 ],
 "C75": [
  "proved",
  "C75_integral, C75_tracer, C75_matter_bias, C75_one_halo_power, C75_one_halo_tracer for all integrands of bounded variation; C75_increasing_hod, C75_default (Zehavi05) and C75_zheng give the bound in terms of the mass function and HOD parameters; C75_smooth is the second-order bound; C75_first_order shows that the first order is attained."
 ],
 "C76": [
  "proved",
  "C76_averages, C76_one_halo_power, C76_two_halo_power, C76_total_power and C76_one_halo_correlation are exact for every table, for any spline that is linear in its data; C76_two_halo_correlation holds where the transform is homogeneous (C68)."
 ],
 "C77": [
  "proved",
  "C77_shapes and C77_peaked give the classes covered; C77_enclosed, C77_density and C77_transform the three statements at fixed mass; C77_fraction and C77_fraction_mass those at a fixed fraction of the radius. Bloating is excluded from the statements at fixed radius; Moore is excluded from them because its scale radius converts the concentration twice (C23_moore_virial)."
 ],
 "C78": [
  "partial",
  "Proved for every halo model, all positive unit factors, all exclusion classes and scale-dependent bias: averages, exclusion, matter, cross and two-halo spectra, one-halo correlations from profiles, eight HOD classes. _partial because false beyond: C78_one_halo_tracer_partial and C78_total_power_partial need the logarithm of the minimum mass (used as a mass by the code) to stay below the mass table in both units (C78_lower_limit_breaks shows the failure, with a concrete model); C78_code_correlation_partial needs the transform's sum to end after as many chunks in both units (C78_tolerance_breaks); Spinelli19 cannot be converted (C78_spinelli_hard_coded). Leauthaud11's hard-coded 1e12*0.72 is compensated by its amplitudes (C78_leauthaud, for any interpolation that commutes with shifts). Single profiles (all classes, normalisations and coordinates), drawn positions, concentrations and biases are converted too (C78_profiles, C78_populate, C78_concentrations, C78_biases); findings: Ludlow16Empirical carries a mass (C78_empirical_hard_coded), virial_velocity the SI constant of gravity (C78_virial_velocity). Not treated: the overwriting below k_hm = 1e-2 with exclusion (C70)."
 ],
 "C79": [
  "proved",
  "C79_bounded and C79_integrals for one integral; C79_tracer, C79_matter_bias, C79_one_halo, C79_two_halo (C79_two_halo_root in terms of the spectra) for the quantities built on it; C79_relative for relative errors of the ingredients."
 ],
 "C80": [
  "proved",
  "C80_integrals for one integral, C80_tracer for the averages over tracers, C80_matter for matter, C80_one_halo_tracer for the one-halo power of tracers, C80_upper_end for raising Mmax, C80_default for the default HOD."
 ]
}