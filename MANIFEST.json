{
 "claims": [
  {
   "property": "C01",
   "status": "proved",
   "theorems": [
    "Halomod.HOD.C01_poisson_satellite",
    "Halomod.HOD.C01_no_central_no_satellite",
    "Halomod.HOD.C01_bulk_ignores_central",
    "Halomod.HOD.C01_effect_of_flag",
    "Halomod.HOD.C01_leauthaud_factor_twice"
   ],
   "note": "All HOD classes. Finding: Leauthaud11 puts the factor nc inside its own satellite function without declaring it, so central=True yields nc^2 (C01_leauthaud_factor_twice). Spinelli19 outside its counts range is excluded from the real-number model and treated in C05."
  },
  {
   "property": "C02",
   "status": "proved",
   "theorems": [
    "Halomod.HOD.C02_ss_pairs",
    "Halomod.HOD.C02_ss_pairs_unit",
    "Halomod.HOD.C02_cs_pairs_independent",
    "Halomod.HOD.C02_cs_pairs_conditional",
    "Halomod.HOD.C02_sigma_satellite",
    "Halomod.HOD.C02_sigma_central",
    "Halomod.HOD.C02_totals",
    "Halomod.HOD.C02_ss_pairs_conditional_iff",
    "Halomod.HOD.C02_bulk_pairs"
   ],
   "note": "Marks included. Finding: with central=True ss_pairs is not the pair count of the conditional joint law unless nc is 0 or 1 (C02_ss_pairs_conditional_iff)."
  },
  {
   "property": "C03",
   "status": "proved",
   "theorems": [
    "Halomod.HOD.C03_zehavi_central",
    "Halomod.HOD.C03_zehavi_satellite",
    "Halomod.HOD.C03_zheng_central",
    "Halomod.HOD.C03_zheng_satellite",
    "Halomod.HOD.C03_zheng_mmin",
    "Halomod.HOD.C03_bounded_support",
    "Halomod.HOD.C03_continuous_matches_zehavi",
    "Halomod.HOD.C03_constant",
    "Halomod.HOD.C03_contreras_range",
    "Halomod.HOD.C03_contreras_exceeds_one",
    "Halomod.HOD.C03_sharp_cut",
    "Halomod.HOD.C03_zheng_central_profile",
    "Halomod.HOD.C03_contreras_profile",
    "Halomod.HOD.C03_tinker_satellite",
    "Halomod.HOD.C03_spinelli",
    "Halomod.HOD.C03_spinelli_counts",
    "Halomod.HOD.C03_leauthaud_central",
    "Halomod.HOD.C03_leauthaud_satellite"
   ],
   "note": "Finding: Contreras13 may exceed one central per halo."
  },
  {
   "property": "C04",
   "status": "partial",
   "theorems": [
    "Halomod.HOD.C04_marked_scaling",
    "Halomod.HOD.C04_sigma_satellite_not_scaling",
    "Halomod.HOD.C04_sigma_satellite_partial"
   ],
   "note": "Missing because false: the satellite scatter scales with sqrt(A), not A (C04_sigma_satellite_not_scaling)."
  },
  {
   "property": "C05",
   "status": "partial",
   "theorems": [
    "Halomod.HOD.C05_tinker_nan",
    "Halomod.HOD.C05_tinker_partial",
    "Halomod.HOD.C05_nc_finite",
    "Halomod.HOD.C05_spinelli_not_finite",
    "Halomod.HOD.C05_spinelli_satellites_not_finite",
    "Halomod.HOD.C05_ns_finite",
    "Halomod.HOD.C05_spinelli_inside",
    "Halomod.HOD.C05_nonneg"
   ],
   "note": "Missing because false: Tinker05 just below 10**M_min is NaN, Spinelli19 outside its counts range is inf/NaN; both refutations are theorems about an IEEE-like model with overflow. Non-negativity of every occupation, number, pair function and scatter of every class is C05_nonneg (non-negative amplitudes, reals)."
  },
  {
   "property": "C06",
   "status": "partial",
   "theorems": [
    "Halomod.HOD.C06_shmr_strictMono",
    "Halomod.HOD.C06_shmr_knee",
    "Halomod.HOD.C06_history_independent_partial",
    "Halomod.HOD.C06_mmin_history",
    "Halomod.HOD.C06_mmin_depends_on_history",
    "Halomod.HOD.C06_evolution",
    "Halomod.HOD.C06_shmr_low_mass",
    "Halomod.HOD.C06_table"
   ],
   "note": "Missing because false: mmin changes after the first occupation call (C06_mmin_depends_on_history)."
  },
  {
   "property": "C07",
   "status": "proved",
   "theorems": [
    "Halomod.Populate.C07_succeeds_iff",
    "Halomod.Populate.C07_rows",
    "Halomod.Populate.C07_centrals",
    "Halomod.Populate.C07_blocks",
    "Halomod.Populate.C07_valid_index",
    "Halomod.Populate.C07_pool_positions_lost",
    "Halomod.Populate.C07_pool_same_bookkeeping"
   ],
   "note": "Serial and process-pool branch; the pool branch loses the satellite positions (C07_pool_positions_lost), which the row/label accounting of C07 does not cover."
  },
  {
   "property": "C08",
   "status": "proved",
   "theorems": [
    "Halomod.Populate.C08_central_condition",
    "Halomod.Populate.C08_count"
   ],
   "note": "Serial branch; the pool branch has the same halo column (C07_pool_same_bookkeeping)."
  },
  {
   "property": "C09",
   "status": "partial",
   "theorems": [
    "Halomod.Profiles.C09_catalogue",
    "Halomod.Profiles.C09_catalogue_box",
    "Halomod.Populate.C09_distance",
    "Halomod.Populate.C09_inside_halo",
    "Halomod.Populate.C09_wrap_shift",
    "Halomod.Populate.C09_wrap_in_box_partial",
    "Halomod.Populate.C09_wrap_inside",
    "Halomod.Populate.C09_wrap_far_outside",
    "Halomod.Populate.C09_edges"
   ],
   "note": "Missing because false: galaxies more than a box length outside stay outside; pool branch returns uninitialised positions. For the serial branch the statement is proved for the whole returned catalogue: every row is within the virial radius of the halo its row names (C09_catalogue), also modulo the box and inside the box when all haloes are and none is larger than the box (C09_catalogue_box)."
  },
  {
   "property": "C10",
   "status": "partial",
   "theorems": [
    "Halomod.Populate.C10_mean_centrals",
    "Halomod.Populate.C10_mean_satellites_independent",
    "Halomod.Populate.C10_mean_satellites_conditional",
    "Halomod.Populate.C10_mean_satellites_iff_partial",
    "Halomod.Populate.C10_zehavi",
    "Halomod.Populate.C10_zheng_half"
   ],
   "note": "Missing because false: with central=True and a gradual central occupation populate applies the central factor twice (C10_zheng_half)."
  },
  {
   "property": "C11",
   "status": "proved",
   "theorems": [
    "Halomod.Tools.C11_node_limit",
    "Halomod.Tools.C11_terminates",
    "Halomod.Tools.C11_sum",
    "Halomod.Tools.C11_nan_ignored",
    "Halomod.Tools.C11_k_is_8pi3_r",
    "Halomod.Tools.C11_returns",
    "Halomod.Tools.C11_names",
    "Halomod.Tools.C11_ogata_nodes",
    "Halomod.Tools.C11_value",
    "Halomod.Tools.C11_node_range"
   ],
   "note": "hankel_transform (the generic chunked routine); real arithmetic, user function may return NaN."
  },
  {
   "property": "C12",
   "status": "partial",
   "theorems": [
    "Halomod.Tools.C12_domain",
    "Halomod.Tools.C12_branches",
    "Halomod.Tools.C12_extensions",
    "Halomod.Tools.C12_array",
    "Halomod.Tools.C12_int_array_truncates",
    "Halomod.Tools.C12_power_law_form",
    "Halomod.Tools.C12_power_law_partial",
    "Halomod.Tools.C12_power_law_discontinuous",
    "Halomod.Tools.C12_negative_power_law"
   ],
   "note": "Missing because false: power_law extensions of negative data are identically zero, and of data that are not an exact power law do not join at the boundary; integer arrays are truncated."
  },
  {
   "property": "C13",
   "status": "partial",
   "theorems": [
    "Halomod.Tools.C13_linear_partial",
    "Halomod.Tools.C13_zero_limit_ignored",
    "Halomod.Tools.C13_zero_limit_wrong",
    "Halomod.Tools.C13_log",
    "Halomod.Tools.C13_warning",
    "Halomod.Tools.C13_no_extrapolation"
   ],
   "note": "Missing because false: a limit equal to 0 is ignored with log=False."
  },
  {
   "property": "C14",
   "status": "proved",
   "theorems": [
    "Halomod.Tools.C14_nodes",
    "Halomod.Tools.C14_power_to_corr_linear",
    "Halomod.Tools.C14_power_to_corr_integrand",
    "Halomod.Tools.C14_range",
    "Halomod.Tools.C14_upper_limit_is_extremum",
    "Halomod.Tools.C14_step_coarser",
    "Halomod.Tools.C14_pfunc_total",
    "Halomod.Tools.C14_pfunc_interp",
    "Halomod.Tools.C14_pfunc_extrapolation",
    "Halomod.Tools.C14_pfunc_homogeneous",
    "Halomod.Tools.C14_ogata_value",
    "Halomod.Tools.C14_reverse"
   ],
   "note": "Including the tabulated-power extrapolation (pfunc)."
  },
  {
   "property": "C15",
   "status": "proved",
   "theorems": [
    "Halomod.Tools.C15_top_hat",
    "Halomod.Tools.C15_bounded",
    "Halomod.Tools.C15_limit",
    "Halomod.Tools.C15_scale"
   ],
   "note": ""
  },
  {
   "property": "C16",
   "status": "proved",
   "theorems": [
    "Halomod.Exclusion.C16_radius",
    "Halomod.Exclusion.C16_sphere_mask",
    "Halomod.Exclusion.C16_dblsphere_mask",
    "Halomod.Exclusion.C16_monotone",
    "Halomod.Exclusion.C16_sphere_stricter",
    "Halomod.Exclusion.C16_sphere_density",
    "Halomod.Exclusion.C16_dblsphere_density"
   ],
   "note": ""
  },
  {
   "property": "C17",
   "status": "proved",
   "theorems": [
    "Halomod.Exclusion.C17_prob_is_documented",
    "Halomod.Exclusion.C17_prob",
    "Halomod.Exclusion.C17_fast_prob",
    "Halomod.Exclusion.C17_ellipsoid_density"
   ],
   "note": ""
  },
  {
   "property": "C18",
   "status": "partial",
   "theorems": [
    "Halomod.Exclusion.C18_sphere",
    "Halomod.Exclusion.C18_dblsphere_partial",
    "Halomod.Exclusion.C18_ellipsoid_partial",
    "Halomod.Exclusion.C18_dblsphere_xmin",
    "Halomod.Exclusion.C18_xmin_not_noexclusion",
    "Halomod.Exclusion.C18_xmin_rule"
   ],
   "note": "Missing because false: with a minimum mass DblSphere/DblEllipsoid integrate the inner mass over the whole grid (C18_dblsphere_xmin, C18_xmin_not_noexclusion). Ellipsoid density modification proved as the trapezoid value."
  },
  {
   "property": "C19",
   "status": "proved",
   "theorems": [
    "Halomod.Exclusion.C19_dblsimps",
    "Halomod.Exclusion.C19_dblsimps_odd",
    "Halomod.Exclusion.C19_upper_only",
    "Halomod.Exclusion.C19_dbltrapz",
    "Halomod.Exclusion.C19_makeW_even",
    "Halomod.Exclusion.C19_dbltrapz_dy_zero",
    "Halomod.Exclusion.C19_makeW_odd"
   ],
   "note": "n>=3 for Simpson, n>=2 for trapezoid (the code's loops need that many)."
  },
  {
   "property": "C20",
   "status": "partial",
   "theorems": [
    "Halomod.Exclusion.C20_dblsphere_partial",
    "Halomod.Exclusion.C20_dblsphere_even_differs",
    "Halomod.Exclusion.C20_ellipsoid_density_ng",
    "Halomod.Exclusion.C20_ellipsoid_rules"
   ],
   "note": "Missing because false: even grid sizes (DblSphere_) and DblEllipsoid_.integrate use other quadratures than the plain classes."
  },
  {
   "property": "C21",
   "status": "partial",
   "theorems": [
    "Halomod.Exclusion.C21_cumsimps_partial",
    "Halomod.Exclusion.C21_cumsimps_last",
    "Halomod.Exclusion.C21_cumsimps_constant_wrong",
    "Halomod.Exclusion.C21_cumsimps_last_even",
    "Halomod.Exclusion.C21_cumsimps_even_wrong"
   ],
   "note": "Missing because false: the last entry, which should be the whole integral, drops its last sample for an odd number of samples (C21_cumsimps_last) and ignores the last interval's end for an even number (C21_cumsimps_last_even)."
  },
  {
   "property": "C22",
   "status": "proved",
   "theorems": [
    "Halomod.Exclusion.C22_raw",
    "Halomod.Exclusion.C22_noexclusion_row",
    "Halomod.Exclusion.C22_sphere_bounds",
    "Halomod.Exclusion.C22_ng_mask",
    "Halomod.Exclusion.C22_ng_threshold",
    "Halomod.Exclusion.C22_density_bounds",
    "Halomod.Exclusion.C22_double_bounds",
    "Halomod.Exclusion.C22_density_order",
    "Halomod.Exclusion.C22_ng_grows"
   ],
   "note": "No minimum mass; mass-only bias for monotonicity in r. Order of the models: C22_double_bounds, C22_density_order, C22_ng_grows."
  },
  {
   "property": "C23",
   "status": "partial",
   "theorems": [
    "Halomod.Profiles.C23_mass_radius_mass",
    "Halomod.Profiles.C23_radius_mass_radius",
    "Halomod.Profiles.C23_overdensity",
    "Halomod.Profiles.C23_radius_strictMono",
    "Halomod.Profiles.C23_scale_radius_partial",
    "Halomod.Profiles.C23_moore_scale_radius",
    "Halomod.Profiles.C23_moore_virial",
    "Halomod.Profiles.C23_virial_velocity"
   ],
   "note": "Missing because false: Moore.scale_radius raises and Moore's virial radius is not at its concentration."
  },
  {
   "property": "C24",
   "status": "proved",
   "theorems": [
    "Halomod.Profiles.C24_nfw",
    "Halomod.Profiles.C24_hernquist",
    "Halomod.Profiles.C24_moore",
    "Halomod.Profiles.C24_constant",
    "Halomod.Profiles.C24_cored",
    "Halomod.Profiles.C24_nfw_exact",
    "Halomod.Profiles.C24_hernquist_exact",
    "Halomod.Profiles.C24_constant_exact",
    "Halomod.Profiles.C24_cored_exact",
    "Halomod.Profiles.C24_norm_m",
    "Halomod.Profiles.C24_einasto",
    "Halomod.Profiles.C24_einasto_shape",
    "Halomod.Profiles.C24_gnfw",
    "Halomod.Profiles.C24_powerlaw"
   ],
   "note": "NFW, Hernquist, Moore, Constant, CoredNFW, Einasto, power law with cut-off; the volume integral for every profile with the Exact interface (NFW, Hernquist, Constant, CoredNFW)."
  },
  {
   "property": "C25",
   "status": "partial",
   "theorems": [
    "Halomod.Profiles.C25_norm_none_partial",
    "Halomod.Profiles.C25_norm_none_iff",
    "Halomod.Profiles.C25_truncated",
    "Halomod.Profiles.C25_nonneg_antitone",
    "Halomod.Profiles.C25_bad_arguments",
    "Halomod.Profiles.C25_coords",
    "Halomod.Profiles.C25_shape_ok",
    "Halomod.Profiles.C25_shape_s",
    "Halomod.Profiles.C25_shape_scalar",
    "Halomod.Profiles.C25_shape_constant",
    "Halomod.Profiles.C25_powerlaw_inside",
    "Halomod.Profiles.C25_norms_consistent",
    "Halomod.Profiles.C25_shape_x"
   ],
   "note": "Missing because false: norm=None integrates to m*rho(z)/rho(0) (C25_norm_none_iff); Constant.rho and scalar calls raise."
  },
  {
   "property": "C26",
   "status": "partial",
   "theorems": [
    "Halomod.Profiles.C26_fourier",
    "Halomod.Profiles.C26_bounded",
    "Halomod.Profiles.C26_limit",
    "Halomod.Profiles.C26_arguments",
    "Halomod.Profiles.C26_generic_shape",
    "Halomod.Profiles.C26_accumulate",
    "Halomod.Profiles.C26_einasto_pairing",
    "Halomod.Profiles.C26_einasto_wrong_halo",
    "Halomod.Profiles.C26_einasto_ok_partial",
    "Halomod.Profiles.C26_meijer_order",
    "Halomod.Profiles.C26_powerlaw",
    "Halomod.Profiles.C26_powerlaw_bounded",
    "Halomod.Profiles.C26_powerlaw_limit",
    "Halomod.Profiles.C26_powerlaw_u"
   ],
   "note": "Proved for the analytic profiles and for the power law with exponential cut-off (C26_powerlaw*); Einasto's interpolated transform pairs haloes wrongly, the Meijer-G ones permute wavenumbers, generic numeric shape handling raises."
  },
  {
   "property": "C27",
   "status": "partial",
   "theorems": [
    "Halomod.Profiles.C27_cdf_partial",
    "Halomod.Profiles.C27_h_zero",
    "Halomod.Profiles.C27_cdf_enclosed",
    "Halomod.Profiles.C27_needs_mass",
    "Halomod.Profiles.C27_coords"
   ],
   "note": "Missing because false: beyond the virial radius cdf exceeds 1; calls without a mass raise."
  },
  {
   "property": "C28",
   "status": "proved",
   "theorems": [
    "Halomod.Profiles.C28_nfw_limit",
    "Halomod.Profiles.C28_hernquist_limit",
    "Halomod.Profiles.C28_density",
    "Halomod.Profiles.C28_u_ignores_arguments",
    "Halomod.Profiles.C28_lam_default",
    "Halomod.Profiles.C28_lam_undefined",
    "Halomod.Profiles.C28_nfwInf_selfconv",
    "Halomod.Profiles.C28_hernquistInf_selfconv"
   ],
   "note": "Density, Fourier transforms (NFW, Hernquist), self-convolutions; finding: HernquistInf lam is 4 times too large."
  },
  {
   "property": "C29",
   "status": "proved",
   "theorems": [
    "Halomod.Profiles.C29_branches",
    "Halomod.Profiles.C29_selfconv",
    "Halomod.Profiles.C29_support",
    "Halomod.Profiles.C29_continuous",
    "Halomod.Profiles.C29_lam",
    "Halomod.Profiles.C29_lam_arguments"
   ],
   "note": "Closed form equals the self-convolution integral."
  },
  {
   "property": "C30",
   "status": "partial",
   "theorems": [
    "Halomod.Concentration.C30_power_pos",
    "Halomod.Concentration.C30_power_mass",
    "Halomod.Concentration.C30_power_redshift",
    "Halomod.Concentration.C30_power_pivot",
    "Halomod.Concentration.C30_power_pivot_nonlinear",
    "Halomod.Concentration.C30_bullock_power",
    "Halomod.Concentration.C30_zehavi11",
    "Halomod.Concentration.C30_power_failed_pivot",
    "Halomod.Concentration.C30_maccio",
    "Halomod.Concentration.C30_duffy_published",
    "Halomod.Concentration.C30_duffy_fallback",
    "Halomod.Concentration.C30_duffy_monotone",
    "Halomod.Concentration.C30_duffy_explicit_partial",
    "Halomod.Concentration.C30_duffy_zero_ignored",
    "Halomod.Concentration.C30_duffy_bad_sample",
    "Halomod.Concentration.C30_empirical",
    "Halomod.Concentration.C30_empirical_range",
    "Halomod.Concentration.C30_empirical_nan",
    "Halomod.Concentration.C30_empirical_evolution",
    "Halomod.Concentration.C30_empirical_knee",
    "Halomod.Params.C30_zehavi11_redshift"
   ],
   "note": "Missing because false: an explicit Duffy08 parameter equal to 0 is ignored; a failed non-linear-mass search gives concentration 0; Ludlow16Empirical is NaN at z=8."
  },
  {
   "property": "C31",
   "status": "proved",
   "theorems": [
    "Halomod.Concentration.C31_interp",
    "Halomod.Concentration.C31_interp_between",
    "Halomod.Concentration.C31_ludlow_array",
    "Halomod.Concentration.C31_ludlow_scalar",
    "Halomod.Concentration.C31_ludlow_int",
    "Halomod.Concentration.C31_ludlow_range",
    "Halomod.Concentration.C31_ludlow_solves",
    "Halomod.Concentration.C31_ludlow_rounded_root",
    "Halomod.Concentration.C31_ludlow16_cm"
   ],
   "note": "Ludlow16: non-empty table (an empty table raises)."
  },
  {
   "property": "C32",
   "status": "proved",
   "theorems": [
    "Halomod.Concentration.C32_zc",
    "Halomod.Concentration.C32_cm",
    "Halomod.Concentration.C32_monotone",
    "Halomod.Concentration.C32_inverse"
   ],
   "note": ""
  },
  {
   "property": "C33",
   "status": "proved",
   "theorems": [
    "Halomod.Bias.C33_mo96",
    "Halomod.Bias.C33_unity",
    "Halomod.Bias.C33_mo96_mean",
    "Halomod.Bias.C33_st99",
    "Halomod.Bias.C33_tinkerPB",
    "Halomod.Bias.C33_tinkerPB_default",
    "Halomod.Bias.C33_tinkerPB_saturates",
    "Halomod.Bias.C33_tinkerPB_table"
   ],
   "note": "Continuous integrals over peak height."
  },
  {
   "property": "C34",
   "status": "proved",
   "theorems": [
    "Halomod.Bias.C34_mo96",
    "Halomod.Bias.C34_st99",
    "Halomod.Bias.C34_st99_limit",
    "Halomod.Bias.C34_st99_not_monotone",
    "Halomod.Bias.C34_jing98",
    "Halomod.Bias.C34_smt01",
    "Halomod.Bias.C34_smt01_mo96",
    "Halomod.Bias.C34_pillepich",
    "Halomod.Bias.C34_seljak04",
    "Halomod.Bias.C34_seljak04_cosmo",
    "Halomod.Bias.C34_tinker10",
    "Halomod.Bias.C34_tinkerPB_positive"
   ],
   "note": "Positivity of Tinker10 for overdensities 100..3200."
  },
  {
   "property": "C35",
   "status": "proved",
   "theorems": [
    "Halomod.Bias.C35_tinkerSD05",
    "Halomod.Bias.C35_default"
   ],
   "note": ""
  },
  {
   "property": "C36",
   "status": "partial",
   "theorems": [
    "Halomod.HaloModel.C36_mean_density_cut_partial",
    "Halomod.HaloModel.C36_mean_density_nocut",
    "Halomod.HaloModel.C36_zehavi_tinker_occupation",
    "Halomod.HaloModel.C36_withmax_counts_absent_centrals",
    "Halomod.HaloModel.C36_marked_ignores_amplitude",
    "Halomod.HaloModel.C36_withmax_density",
    "Halomod.HaloModel.C36_fractions",
    "Halomod.HaloModel.C36_constant_bias",
    "Halomod.HaloModel.C36_averages",
    "Halomod.HaloModel.C36_abundance_scaling",
    "Halomod.HaloModel.C36_occupation_scaling",
    "Halomod.HaloModel.C36_one_halo_power",
    "Halomod.HaloModel.C36_total_power",
    "Halomod.HaloModel.C36_one_halo_cut_not_applied",
    "Halomod.HaloModel.C36_one_halo_pairs_frozen",
    "Halomod.HaloModel.C36_turnover_mass",
    "Halomod.HaloModel.C36_mesh_averages",
    "Halomod.HaloModel.C36_density_table"
   ],
   "note": "Missing because false: for Zehavi05WithMax and Zehavi05Marked the mass integrals use a central occupation of one (C36_withmax_counts_absent_centrals, C36_marked_ignores_amplitude); 1-halo integrals pass log M_min as a mass. C36_mesh_averages: for every HOD class the averages tend to values inside the documented ranges, without assumptions on quadrature weights."
  },
  {
   "property": "C37",
   "status": "proved",
   "theorems": [
    "Halomod.HaloState.C37_terminates",
    "Halomod.HaloState.C37_update",
    "Halomod.HaloState.C37_history",
    "Halomod.HaloState.C37_release",
    "Halomod.HaloState.C37_keep",
    "Halomod.HaloState.C37_both",
    "Halomod.HaloState.C37_solution_independent_of_mmin",
    "Halomod.HaloState.C37_failed_update",
    "Halomod.HaloState.C37_assignment_stale"
   ],
   "note": "State machine over every history of updates, with failures; direct attribute assignment is outside the claim and refuted (C37_assignment_stale)."
  },
  {
   "property": "C38",
   "status": "partial",
   "theorems": [
    "Halomod.HaloState.C38_cumulative",
    "Halomod.HaloState.C38_cumulative_monotone",
    "Halomod.HaloState.C38_cumulative_strict",
    "Halomod.HaloState.C38_no_cumtrapz",
    "Halomod.HaloState.C38_raises_iff",
    "Halomod.HaloState.C38_largest_density_index_error",
    "Halomod.HaloState.C38_bracket_partial",
    "Halomod.HaloState.C38_extrapolates",
    "Halomod.HaloState.C38_succeeds",
    "Halomod.HaloState.C38_occupation_independent",
    "Halomod.HaloState.C38_tinker_density_too_low",
    "Halomod.HaloState.C38_round_trip"
   ],
   "note": "Missing because false: densities below the one above the second largest grid mass are extrapolated; exactly the largest density raises IndexError; scipy>=1.14 raises AttributeError always."
  },
  {
   "property": "C39",
   "status": "partial",
   "theorems": [
    "Halomod.Cross.C39_two_tracers",
    "Halomod.HaloModel.C39_matter_analytic",
    "Halomod.HaloModel.C39_matter_transformed_off_by_one",
    "Halomod.HaloModel.C39_tracer_transformed",
    "Halomod.HaloModel.C39_tracer_analytic_partial",
    "Halomod.HaloModel.C39_tracer_extra_central_factor",
    "Halomod.HaloModel.C39_tracer_total",
    "Halomod.HaloModel.C39_cross_off_by_one",
    "Halomod.HaloModel.C39_two_halo_zero_below_table"
   ],
   "note": "Missing because false: transformed matter and cross correlations are one too large; extra central factor for smooth HODs."
  },
  {
   "property": "C40",
   "status": "partial",
   "theorems": [
    "Halomod.HaloModel.C40_constant_bias",
    "Halomod.HaloModel.C40_symmetric",
    "Halomod.HaloModel.C40_defaults",
    "Halomod.HaloModel.C40_single_mass_raises",
    "Halomod.HaloModel.C40_range",
    "Halomod.HaloModel.C40_bias_redshift_zero_partial",
    "Halomod.HaloModel.C40_bias_ignores_redshift"
   ],
   "note": "Missing because false: the bias component is evaluated at redshift 0 (C40_bias_ignores_redshift); single masses raise."
  },
  {
   "property": "C41",
   "status": "proved",
   "theorems": [
    "Halomod.Cross.C41_pairs_symmetric",
    "Halomod.Cross.C41_uncorrelated",
    "Halomod.Cross.C41_self_pairs",
    "Halomod.Cross.C41_full_correlation_counts_self",
    "Halomod.Cross.C41_negative_pairs",
    "Halomod.Cross.C41_pairs_nonneg",
    "Halomod.Cross.C41_one_halo_symmetric",
    "Halomod.Cross.C41_two_halo_symmetric",
    "Halomod.Cross.C41_total_symmetric",
    "Halomod.Cross.C41_first_mass_function_only",
    "Halomod.Cross.C41_self_two_halo",
    "Halomod.Cross.C41_self_one_halo_integrand",
    "Halomod.Cross.C41_self_gradual",
    "Halomod.Cross.C41_totals",
    "Halomod.Cross.C41_large_scale",
    "Halomod.Cross.C41_constant_coefficients",
    "Halomod.Cross.C41_undefined_masses"
   ],
   "note": ""
  },
  {
   "property": "C42",
   "status": "partial",
   "theorems": [
    "Halomod.IntegrateCorr.C42_projected_homogeneous",
    "Halomod.IntegrateCorr.C42_projected_single",
    "Halomod.IntegrateCorr.C42_projected_drop_to_zero",
    "Halomod.IntegrateCorr.C42_projected_samples",
    "Halomod.IntegrateCorr.C42_slope_rule",
    "Halomod.IntegrateCorr.C42_projected_additive_partial",
    "Halomod.IntegrateCorr.C42_limits",
    "Halomod.IntegrateCorr.C42_flat",
    "Halomod.IntegrateCorr.C42_flat_checked",
    "Halomod.IntegrateCorr.C42_check_partial",
    "Halomod.IntegrateCorr.C42_check_method_partial",
    "Halomod.IntegrateCorr.C42_angular_symmetric",
    "Halomod.IntegrateCorr.C42_angular_linear",
    "Halomod.IntegrateCorr.C42_rescale_partial",
    "Halomod.IntegrateCorr.C42_rescale_within_tolerance",
    "Halomod.IntegrateCorr.C42_angular_samples",
    "Halomod.IntegrateCorr.C42_xvec_lacks_h",
    "Halomod.IntegrateCorr.C42_theta",
    "Halomod.IntegrateCorr.C42_theta_validation",
    "Halomod.IntegrateCorr.C42_theta_peak",
    "Halomod.IntegrateCorr.C42_theta_cut",
    "Halomod.IntegrateCorr.C42_projected_integrand",
    "Halomod.IntegrateCorr.C42_projection_is_line_of_sight",
    "Halomod.IntegrateCorr.C42_redshift_or_distance",
    "Halomod.IntegrateCorr.C42_limber",
    "Halomod.IntegrateCorr.C42_projection_converges",
    "Halomod.IntegrateCorr.C42_inner_cut",
    "Halomod.IntegrateCorr.C42_rp_grid"
   ],
   "note": "Additivity only for slopes that do not matter; normalisation and rescaling only up to the code's 1% tolerance (refuted beyond). The cut of the line-of-sight integral, its integrand, Limber's equation and the redshift/distance choice are C42_theta_peak, C42_theta_cut, C42_projected_integrand, C42_projection_is_line_of_sight, C42_limber, C42_redshift_or_distance. The 1000-point rule is one member of a family that converges to the integral from the cut to the limit (C42_projection_converges), and for a non-negative, non-increasing correlation the cut loses at most 4.1% of rp*xi(rp) (C42_inner_cut). Where the correlation drops from a positive value to exactly zero between two input separations the projected correlation is NaN (C42_projected_drop_to_zero)."
  },
  {
   "property": "C43",
   "status": "partial",
   "theorems": [
    "Halomod.Wdm.C43_new_class",
    "Halomod.Wdm.C43_values_kept_partial",
    "Halomod.Wdm.C43_other_classes",
    "Halomod.Wdm.C43_base_polluted",
    "Halomod.Wdm.C43_idempotent",
    "Halomod.Wdm.C43_suffix",
    "Halomod.Wdm.C43_subclass_recursion",
    "Halomod.Wdm.C43_direct_instance",
    "Halomod.Wdm.C43_lowers",
    "Halomod.Wdm.C43_lowers_default",
    "Halomod.Wdm.C43_suppression_monotone",
    "Halomod.Wdm.C43_raises_at_high_z",
    "Halomod.Wdm.C43_densities",
    "Halomod.Wdm.C43_unit_bias",
    "Halomod.Wdm.C43_smooth_unbiased",
    "Halomod.Wdm.C43_total",
    "Halomod.Wdm.C43_large_scale_excess",
    "Halomod.Wdm.C43_fraction_redshift"
   ],
   "note": "Missing because false: building a WDM relation adds its parameters to the base's defaults; concentrations rise beyond z=1.54; large-scale power exceeds the linear one."
  },
  {
   "property": "C44",
   "status": "partial",
   "theorems": [
    "Halomod.HaloModel.C44_large_scale_limit",
    "Halomod.HaloModel.C44_mesh_large_scale_limit",
    "Halomod.HaloModel.C44_tracer_large_scale",
    "Halomod.HaloModel.C44_tracer_large_scale_nocut_partial",
    "Halomod.HaloModel.C44_matter_large_scale",
    "Halomod.HaloModel.C44_matter_bias",
    "Halomod.HaloModel.C44_low_k_overwrite"
   ],
   "note": "On a finite grid the code's Simpson value of the bias appears instead of bias_effective_tracer (a spline integral) for tracers without a cut; the exact statement holds in the limit of fine mass grids for every HOD (C44_large_scale_limit; C44_mesh_large_scale_limit on the package's own mass grid and for HODs with steps). Missing because false: with exclusion or scale-dependent bias low wavenumbers are overwritten with one power of the bias (C44_low_k_overwrite)."
  },
  {
   "property": "C45",
   "status": "proved",
   "theorems": [
    "Halomod.HaloModel.C45_separations",
    "Halomod.HaloModel.C45_single",
    "Halomod.HaloModel.C45_log_grid",
    "Halomod.HaloModel.C45_filtered",
    "Halomod.HaloModel.C45_filtered_needs_large_k"
   ],
   "note": ""
  },
  {
   "property": "C46",
   "status": "partial",
   "theorems": [
    "Halomod.HaloModel.C46_formula",
    "Halomod.HaloModel.C46_one_halo_large_scale",
    "Halomod.HaloModel.C46_two_halo_large_scale",
    "Halomod.HaloModel.C46_two_halo_consistent_iff",
    "Halomod.HaloModel.C46_one_halo_bounds",
    "Halomod.HaloModel.C46_matter_as_tracer",
    "Halomod.HaloModel.C46_centrals_not_smeared"
   ],
   "note": "Missing because false: the matter factor is the bias integral over the mean density whatever force_unity_dm_bias says (C46_two_halo_consistent_iff); the tracer auto term smears centrals with the profile (C46_centrals_not_smeared)."
  },
  {
   "property": "C47",
   "status": "partial",
   "theorems": [
    "Halomod.HaloModel.C47_power_function",
    "Halomod.HaloModel.C47_vanishes_at_large_scales",
    "Halomod.HaloModel.C47_choice",
    "Halomod.HaloModel.C47_filtered_lin",
    "Halomod.HaloModel.C47_filtered_nl_radius_three",
    "Halomod.HaloModel.C47_filtered_join",
    "Halomod.HaloModel.C47_corr_base",
    "Halomod.HaloModel.C47_correlations",
    "Halomod.HaloModel.C47_two_halo_low_k",
    "Halomod.HaloModel.C47_filtered_flag"
   ],
   "note": "Missing because false: filtered-nl uses radius 3; a filtered spectrum jumps at the first wavenumber unless the window is 1 there; _corr_mm_base_fnc is None for filtered-lin."
  },
  {
   "property": "C48",
   "status": "partial",
   "theorems": [
    "Halomod.Components.C48_default",
    "Halomod.Components.C48_explicit_same",
    "Halomod.Components.C48_parameters",
    "Halomod.Components.C48_consistent",
    "Halomod.Components.C48_concentration_alone",
    "Halomod.Components.C48_halo_unaffected",
    "Halomod.Components.C48_matter_independent_of_tracer",
    "Halomod.Components.C48_hod_components"
   ],
   "note": "Missing because false: a tracer concentration given without a tracer profile is ignored by the tracer profile's own methods (C48_concentration_alone)."
  },
  {
   "property": "C49",
   "status": "partial",
   "theorems": [
    "Halomod.Components.C49_mask",
    "Halomod.Components.C49_validate",
    "Halomod.Components.C49_grids",
    "Halomod.Components.C49_separations_unchecked"
   ],
   "note": "Missing because false: non-positive scalar separations and any array of separations are accepted (C49_separations_unchecked); one remaining mass is rejected."
  },
  {
   "property": "C50",
   "status": "partial",
   "theorems": [
    "Halomod.HaloState.C50_density_too_high",
    "Halomod.HaloState.C50_result",
    "Halomod.HaloState.C50_accuracy",
    "Halomod.HaloState.C50_start_must_be_valid",
    "Halomod.HaloState.C50_convergence_unchecked",
    "Halomod.HaloState.C50_zheng_dropped_negligible",
    "Halomod.HaloState.C50_contreras_dropped",
    "Halomod.HaloState.C50_density",
    "Halomod.HaloState.C50_valid"
   ],
   "note": "Missing because false: convergence is not checked, the start value must be valid, Contreras13 galaxies below M_min are not counted."
  },
  {
   "property": "C51",
   "status": "partial",
   "theorems": [
    "Halomod.Framework.C51_reads_are_current",
    "Halomod.Framework.C51_parameters_take_effect",
    "Halomod.Framework.C51_reads_terminate",
    "Halomod.Framework.C51_untracked_dependents",
    "Halomod.Framework.C51_force_unity_is_stale"
   ],
   "note": "Missing because false: force_unity_dm_bias is a plain attribute, so changing it leaves ten matter quantities stale (C51_force_unity_is_stale, C51_untracked_dependents); proved for every history that does not assign it. Assumes hmf's documented caching decorators."
  },
  {
   "property": "C52",
   "status": "partial",
   "theorems": [
    "Halomod.Colossus.C52_native_isolated",
    "Halomod.Colossus.C52_colossus_last_wins",
    "Halomod.Colossus.C52_one_cosmology_partial",
    "Halomod.Colossus.C52_second_model_interferes"
   ],
   "note": "Proved for every program: native components are isolated; a colossus-backed component evaluates in the cosmology of the colossus-backed component built last (finding C52_second_model_interferes: so it changes when another model is built); it is right in programs that use one cosmology. colossus itself is a function of its global cosmology."
  },
  {
   "property": "C53",
   "status": "partial",
   "theorems": [
    "Halomod.Pairing.C53_constructed",
    "Halomod.Pairing.C53_warning",
    "Halomod.Pairing.C53_mass_function_warning",
    "Halomod.Pairing.C53_update_keeps_mass_function",
    "Halomod.Pairing.C53_update_unpairs",
    "Halomod.Pairing.C53_update_both"
   ],
   "note": "Proved: pairing at construction, explicit mass function wins, when the warning appears. Findings: the pairing is not redone on update (C53_update_keeps_mass_function, C53_update_unpairs), and the default bias Tinker10 always warns because it declares no partner (C53_warning)."
  },
  {
   "property": "C54",
   "status": "partial",
   "theorems": [
    "Halomod.HaloModel.C54_code_partial",
    "Halomod.HaloModel.C54_tolerance_breaks",
    "Halomod.HaloModel.C54_integral",
    "Halomod.HaloModel.C54_tables",
    "Halomod.HaloModel.C54_tracer_spectrum",
    "Halomod.HaloModel.C54_matter_spectrum",
    "Halomod.HaloModel.C54_tracer_partial",
    "Halomod.HaloModel.C54_matter_partial",
    "Halomod.HaloModel.C54_own_row",
    "Halomod.HaloModel.C54_density"
   ],
   "note": "For all eight exclusion classes the corrected spectrum of each separation is the uncorrected one times the squared correction (C54_tracer_spectrum, C54_matter_spectrum: no assumption on the transform). That the correlation is rescaled likewise is false of the code: the transform stops on an absolute tolerance (C54_tolerance_breaks, a full model with the transform of the code); it holds wherever both sums over nodes end after as many chunks (C54_code_partial). Assumes the interpolating spline is linear in its data (proved of the cubic spline in C62) and the power-law fit follows a rescaling; the correction must not vanish and the linear power be non-zero at the first wavenumber. C54_density: the density every class uses is the documented pair integral."
  },
  {
   "property": "C55",
   "status": "partial",
   "theorems": [
    "Halomod.Observables.C55_projected_settings",
    "Halomod.Observables.C55_projected_update_iff",
    "Halomod.Observables.C55_projected_stale",
    "Halomod.Observables.C55_projected_beyond_table",
    "Halomod.Observables.C55_angular_errors",
    "Halomod.Observables.C55_angular_update_iff",
    "Halomod.Observables.C55_angular_stale_range",
    "Halomod.Observables.C55_redshift_warning",
    "Halomod.Observables.C55_sizes_truncated"
   ],
   "note": "Missing because false: rnum is taken from rp_num, and the default distribution from zmin/zmax, only at construction (C55_projected_stale, C55_angular_stale_range); proved: exactly when the two ways agree (C55_projected_update_iff, C55_angular_update_iff), all other settings and refusals always agree. hmf's update is modelled as assignment through the setters."
  },
  {
   "property": "C56",
   "status": "proved",
   "theorems": [
    "Halomod.HaloModel.C56_tracer_matter_power",
    "Halomod.HaloModel.C56_code_transform",
    "Halomod.HaloModel.C56_integral_rule",
    "Halomod.HaloModel.C56_integrals",
    "Halomod.HaloModel.C56_densities",
    "Halomod.HaloModel.C56_ng_integrals",
    "Halomod.HaloModel.C56_tracer_mean",
    "Halomod.HaloModel.C56_tracer",
    "Halomod.HaloModel.C56_matter_bias",
    "Halomod.HaloModel.C56_one_halo_power",
    "Halomod.HaloModel.C56_one_halo_corr",
    "Halomod.HaloModel.C56_tracer_zheng05",
    "Halomod.HaloModel.C56_wdm",
    "Halomod.HaloModel.C56_cross_power",
    "Halomod.HaloModel.C56_two_halo_power",
    "Scaled.C56_two_halo_tracer_excl",
    "Scaled.C56_two_halo_matter_excl",
    "Halomod.HaloModel.C56_mesh_tracer",
    "Halomod.HaloModel.C56_mesh_matter_bias",
    "Halomod.HaloModel.C56_mesh_one_halo_power",
    "Halomod.HaloModel.C56_mesh_one_halo_corr",
    "Halomod.HaloModel.C56_mesh_two_halo_power",
    "Halomod.HaloModel.C56_mesh_every_hod",
    "Halomod.HaloModel.C56_mesh_every_hod_power",
    "Halomod.HaloModel.C56_mesh_default",
    "Halomod.HaloModel.C56_mesh_tracer_matter_power",
    "Halomod.HaloModel.C56_mesh_cross_power",
    "Halomod.HaloModel.C56_mesh_wdm"
   ],
   "note": "Two families. C56_mesh_*: the grid of hmf, 10**np.arange(Mmin, Mmax, dlog10m), whose last mass moves with dlog10m and stays below 10**Mmax, as dlog10m tends to 0; mass function, bias, profiles and occupations may have jumps (bounded, continuous except at countably many masses), so steps of the HOD inside the range are covered; C56_mesh_every_hod(_power) discharges this for every HOD class and C56_mesh_default for the package default Zehavi05; C56_mesh_tracer_matter_power, C56_mesh_cross_power and C56_mesh_wdm cover the tracer-matter cross power, the power of two different tracers and warm dark matter on the same grid. The spline is assumed to integrate like the broken line up to a multiple of the step (SplQuad, proved of the cubic spline: C62_integral_jumps). The other C56_* theorems: n+2 masses evenly spaced in log mass over a fixed closed range and continuous inputs (SplConv, proved of the cubic spline in C62). Cross power: the two models share the mass range and no pair count is NaN. Two-halo correlations with exclusion: HODs without a sharp cut, and convergence at every separation at which the transform is continuous at the limiting spectrum; for the transform of the code this holds unless its stopping test is met exactly on its boundary (C56_code_transform, C68_continuous)."
  },
  {
   "property": "C57",
   "status": "proved",
   "theorems": [
    "Halomod.Framework.C57_cross_reads_are_current",
    "Halomod.Framework.C57_tracers_are_independent",
    "Halomod.Framework.C57_cross_reads_terminate",
    "Halomod.Framework.C57_grids_of_the_first",
    "Halomod.Framework.C57_cross_parts",
    "Halomod.Framework.C57_cross_built_once",
    "Halomod.Framework.C57_wdm_parts",
    "Halomod.Framework.C57_wdm_reads_are_current",
    "Halomod.Framework.C57_wdm_reads_terminate",
    "Halomod.Framework.C57_wdm_untracked"
   ],
   "note": "Assumes hmf's documented caching, including that quantities reading a sub-framework depend on its parameters. The two private limits of the separation table are excluded; re-assigning the private dictionaries _halo_model_1_params/_halo_model_2_params after construction is not modelled. Finding: in WDM models five cached matter quantities depend on the untracked force_unity_dm_bias (C57_wdm_untracked), like the ten of C51."
  },
  {
   "property": "C58",
   "status": "proved",
   "theorems": [
    "Halomod.IntegrateCorr.C58_angular_redshift",
    "Halomod.IntegrateCorr.C58_angular_distance",
    "Halomod.IntegrateCorr.C58_second_defaults_to_first"
   ],
   "note": "xi continuous on r>0, distributions continuous on the sample, dx/dz the positive continuous derivative of h\u00b7distance; the integral of each distribution is neither 0 nor exactly on the tolerance of the normalisation check. The limit is over znum and unum going to infinity independently, with the ranges of z and u fixed (the truncation of u is the code's own)."
  },
  {
   "property": "C59",
   "status": "proved",
   "theorems": [
    "Halomod.Profiles.C59_radial",
    "Halomod.Profiles.C59_isotropic",
    "Halomod.Profiles.C59_independent",
    "Halomod.Profiles.C59_expected_number",
    "Halomod.Profiles.C59_mean_profile"
   ],
   "note": "Assumes that the interpolating spline of the inverse cdf through the code's own table increases (Shape.InverseIncreasing; shown for piecewise-linear interpolation; scipy's cubic spline does not guarantee it), no bloating, and an exact cdf vanishing at 0 (NFW, Hernquist, CoredNFW, Constant). The random generator is its documented law."
  },
  {
   "property": "C60",
   "status": "partial",
   "theorems": [
    "Halomod.Profiles.C60_norm_variation",
    "Halomod.Profiles.C60_norm_unimodal",
    "Halomod.Profiles.C60_norm_gnfw",
    "Halomod.Profiles.C60_norm_pos",
    "Halomod.Profiles.C60_norm_arguments",
    "Halomod.Profiles.C60_norm_array",
    "Halomod.Profiles.C60_transform",
    "Halomod.Profiles.C60_transform_exact",
    "Halomod.Profiles.C60_transform_order",
    "Halomod.Profiles.C60_single_wavenumber",
    "Halomod.Profiles.C60_transform_bounded",
    "Halomod.Profiles.C60_break_points",
    "Halomod.Profiles.C60_gnfw",
    "Halomod.Profiles.C60_norm_mass",
    "Halomod.Profiles.C60_output_shape",
    "Halomod.Profiles.C60_transform_accuracy",
    "Halomod.Profiles.C60_norm_array_unimodal",
    "Halomod.Profiles.C60_norm_array_gnfw",
    "Halomod.Profiles.C60_gnfw_accuracy"
   ],
   "note": "Missing because false: all wavenumbers equal (in particular one wavenumber and one halo) raise (C60_single_wavenumber); one zero is missing from the break points (C60_break_points), harmless for an exact integrator. quad is taken as exact. The error between the 100 tabulated wavenumbers (C60_transform_accuracy) and of the normalisation of every halo in an array (C60_norm_array_unimodal) is bounded explicitly with the cubic spline of C62."
  },
  {
   "property": "C61",
   "status": "partial",
   "theorems": [
    "Halomod.HaloModel.C61_one_halo_low",
    "Halomod.HaloModel.C61_one_halo_high",
    "Halomod.HaloModel.C61_two_halo",
    "Halomod.HaloModel.C61_matter_correlation_far",
    "Halomod.HaloModel.C61_tracer_correlation_far",
    "Halomod.HaloModel.C61_cross_correlation_far",
    "Halomod.HaloModel.C61_two_tracers_far",
    "Halomod.HaloModel.C61_two_halo_exclusion"
   ],
   "note": "Missing because false: totals beyond the largest tabulated separation are 1 for matter, tracer-matter, two tracers and tracers without analytic self-convolution (C61_matter_correlation_far, C61_cross_correlation_far, C61_two_tracers_far, C61_tracer_correlation_far)."
  },
  {
   "property": "C62",
   "status": "proved",
   "theorems": [
    "Halomod.Tools.C62_characterised",
    "Halomod.Tools.C62_through",
    "Halomod.Tools.C62_smooth",
    "Halomod.Tools.C62_exact_cubic",
    "Halomod.Tools.C62_integral_exact",
    "Halomod.Tools.C62_linear",
    "Halomod.Tools.C62_stable",
    "Halomod.Tools.C62_integral_jumps",
    "Halomod.Tools.C62_converges",
    "Halomod.Tools.C62_extended_spline",
    "Halomod.Tools.C62_overshoots",
    "Halomod.Tools.C62_assumptions",
    "Halomod.Tools.C62_tracer_converges",
    "Halomod.Tools.C62_accuracy",
    "Halomod.Tools.C62_accuracy_log"
   ],
   "note": "The model is the element of the space of cubic splines with FITPACK's knots (all data points but the second and last but one) that interpolates the data; that FITPACK computes it is trusted. Rounding is not modelled. Degree-1 splines (profiles.py:863, 953) and the smoothing spline (tools.py:543) are other functions. Fewer than five points: the polynomial through them (scipy refuses fewer than four)."
  },
  {
   "property": "C63",
   "status": "partial",
   "theorems": [
    "Halomod.Params.C63_unknown_refused",
    "Halomod.Params.C63_mo96",
    "Halomod.Params.C63_jing98_partial",
    "Halomod.Params.C63_jing98_notation",
    "Halomod.Params.C63_st99",
    "Halomod.Params.C63_st99_defaults_swapped",
    "Halomod.Params.C63_mandelbaum05",
    "Halomod.Params.C63_manera10_partial",
    "Halomod.Params.C63_manera10_default_differs",
    "Halomod.Params.C63_smt01",
    "Halomod.Params.C63_tinker05",
    "Halomod.Params.C63_seljak04",
    "Halomod.Params.C63_seljak04Cosmo_partial",
    "Halomod.Params.C63_seljak04Cosmo_frozen",
    "Halomod.Params.C63_pillepich10",
    "Halomod.Params.C63_pillepich10_B3",
    "Halomod.Params.C63_tinker10",
    "Halomod.Params.C63_tinkerSD05",
    "Halomod.Params.C63_tinkerPB",
    "Halomod.Params.C63_tinkerPB_between",
    "Halomod.Params.C63_tinkerPB_alpha_unused",
    "Halomod.Params.C63_bullock_power",
    "Halomod.Params.C63_bullock_pivot",
    "Halomod.Params.C63_zehavi11",
    "Halomod.Params.C63_maccio07",
    "Halomod.Params.C63_ludlow16Empirical",
    "Halomod.Params.C63_bullock01_partial",
    "Halomod.Params.C63_bullock01_K",
    "Halomod.HOD.C63_zehavi_M1",
    "Halomod.HOD.C63_contreras_M1",
    "Halomod.HOD.C63_zheng_M1",
    "Halomod.HOD.C63_zheng_M0",
    "Halomod.HOD.C63_zheng_Mmin",
    "Halomod.HOD.C63_contreras_M0",
    "Halomod.HOD.C63_contreras_default_centrals",
    "Halomod.HOD.C63_power_law_matches_zehavi",
    "Halomod.HOD.C63_leauthaud_redshift",
    "Halomod.Profiles.C63_profiles",
    "Halomod.Profiles.C63_moore_formula"
   ],
   "note": "False in the code for the classes and parameters named in the property (refutations: C63_jing98_notation, C63_st99_defaults_swapped, C63_manera10_default_differs, C63_bullock01_K, C63_seljak04Cosmo_frozen, C63_pillepich10_B3, C63_tinkerPB_alpha_unused, C63_zheng_M1, C63_zheng_Mmin, C63_contreras_M0, C63_moore_formula); proved for all others, and for those classes with the actual defaults. hmf's Component.__init__ (outside the repository) is modelled as documented there: unknown keywords refused, defaults updated. Duffy08 is C30_duffy_*; formulas given only by citation (Maccio07, Ludlow16) are not claimed, Ludlow16Empirical is compared with equations C1-C6 transcribed from the cited paper."
  },
  {
   "property": "C64",
   "status": "partial",
   "theorems": [
    "Halomod.HaloModel.C64_one_halo_bound_partial",
    "Halomod.HaloModel.C64_turnover_breaks_bound",
    "Halomod.HaloModel.C64_two_halo",
    "Halomod.HaloModel.C64_mesh_one_halo_bound_partial",
    "Halomod.HaloModel.C64_mesh_two_tracers_one_halo_partial",
    "Halomod.HaloModel.C64_default_partial",
    "Halomod.HaloModel.C64_mesh_two_halo",
    "Halomod.HaloModel.C64_mesh_turnover_breaks_bound",
    "Halomod.HaloModel.C64_default_two_halo",
    "Halomod.HaloModel.C64_zheng_two_halo",
    "Halomod.HaloModel.C64_zheng_partial",
    "Halomod.Cross.C64_two_tracers_two_halo",
    "Halomod.Cross.C64_two_tracers_one_halo_partial"
   ],
   "note": "Missing because false: the default one-halo turnover is applied to the auto terms only, so on large scales both vanish while the cross term does not (C64_turnover_breaks_bound), and the two-halo cross power exceeds the geometric mean of the auto terms wherever the tracer profile is resolved (C64_two_halo; C64_mesh_turnover_breaks_bound, C64_mesh_two_halo and C64_default_two_halo: the same on the package's mass grid, for occupations with steps, in particular the default HOD). Proved with the turnover off in the limit of fine mass grids (the spline quadrature on a fixed grid need not be positive): for occupations continuous over the mass range (C64_one_halo_bound_partial) and, on the mass grid the package makes, for occupations with jumps inside it (C64_mesh_one_halo_bound_partial), in particular the default HOD (C64_default_partial). Two tracers: the two-halo terms are perfectly correlated exactly, on every grid (C64_two_tracers_two_halo); the one-halo bound with the turnover off, fine grids, also for occupations that jump (C64_mesh_two_tracers_one_halo_partial). C64_default_* are for Zehavi05, C64_zheng_* for Zheng05."
  },
  {
   "property": "C65",
   "status": "partial",
   "theorems": [
    "Halomod.Tools.C65_hankel_r_partial",
    "Halomod.Tools.C65_hankel_k_partial",
    "Halomod.Tools.C65_refining_gives_zero",
    "Halomod.Tools.C65_ogata_partial",
    "Halomod.Tools.C65_corr_to_power_partial",
    "Halomod.Tools.C65_chunk_matters"
   ],
   "note": "Missing because false: with a fixed chunk size and a positive absolute tolerance (the defaults) the result of hankel_transform tends to zero as h tends to zero, for every spectrum (C65_refining_gives_zero, C65_chunk_matters): the first chunk collapses onto the origin and its smallness is taken for convergence; and power_to_corr_ogata ends up integrating the tabulated range only, ignoring the documented extension above it. Proved: convergence of hankel_transform to the exact transform when the chunk covers the available nodes, in r and k space, and convergence of power_to_corr_ogata and corr_to_power_ogata to the integral over the tabulated range with the extension below it. Real arithmetic; convergence, no rate."
  },
  {
   "property": "C66",
   "status": "proved",
   "theorems": [
    "Halomod.Tools.C66_round_trip_power",
    "Halomod.Tools.C66_round_trip_corr",
    "Halomod.Tools.C66_worked_pair"
   ],
   "note": "For every pair of transformable functions; C66_worked_pair is a closed-form pair satisfying all hypotheses. Real arithmetic."
  },
  {
   "property": "C67",
   "status": "partial",
   "theorems": [
    "Halomod.Settings.C67_params",
    "Halomod.Settings.C67_params_not_checked",
    "Halomod.Settings.C67_reassign",
    "Halomod.Settings.C67_models",
    "Halomod.Settings.C67_numbers",
    "Halomod.Settings.C67_switch_text",
    "Halomod.Settings.C67_spectrum",
    "Halomod.Settings.C67_number_types",
    "Halomod.Settings.C67_construct",
    "Halomod.Settings.C67_defaults",
    "Halomod.Settings.C67_construct_update",
    "Halomod.Settings.C67_update_none_raises",
    "Halomod.Settings.C67_unknown",
    "Halomod.Settings.C67_fast_kwargs",
    "Halomod.Settings.C67_default_masses",
    "Halomod.Settings.C67_fast_values",
    "Halomod.Settings.C67_update_density",
    "Halomod.Settings.C67_wdm_default"
   ],
   "note": "Missing because false: 0, False, '' and [] pass for parameter dictionaries (C67_params_not_checked), any non-empty text turns a switch on (C67_switch_text), update(hod_params=None) raises although None is the documented default (C67_update_none_raises), and the default fast settings of get_halomodel name options that no longer exist, so no model can be built from them (C67_fast_kwargs, for any hmf that does not know halomod's old names). Construction equals default-plus-update for dictionaries in hod_params and no tracer density (C37 for that). hmf's look-up of classes, assignment and update are externals, hmf's own setters are not modelled."
  },
  {
   "property": "C68",
   "status": "partial",
   "theorems": [
    "Halomod.HaloModel.C68_code_calls",
    "Halomod.Tools.C68_value",
    "Halomod.Tools.C68_linear_same_nodes",
    "Halomod.Tools.C68_relative_tolerance_partial",
    "Halomod.Tools.C68_faint_first_chunk",
    "Halomod.Tools.C68_scaling_breaks",
    "Halomod.Tools.C68_brighter_more_nodes",
    "Halomod.Tools.C68_continuous",
    "Halomod.Tools.C68_scaling_breaks_here"
   ],
   "note": "Missing because false: with an absolute tolerance (1e-8 by default) every small enough spectrum is summed over the first chunk only (C68_faint_first_chunk), so faint copies of a spectrum are not transformed into faint copies (C68_scaling_breaks, C68_scaling_breaks_here with the settings of the two-halo terms). Proved: C68_value identifies the transform with the modelled loop; it is linear wherever the sums end after as many chunks, homogeneous with a purely relative tolerance, a brighter copy never uses fewer nodes, and it is continuous in the spectrum unless the stopping test is met exactly on its boundary. Real arithmetic; no NaN in the spectrum."
  },
  {
   "property": "C69",
   "status": "partial",
   "theorems": [
    "Halomod.Wdm.C69_named",
    "Halomod.Wdm.C69_default_not_rescaled",
    "Halomod.Wdm.C69_tracer_follows",
    "Halomod.Wdm.C69_tracer_half_mode",
    "Halomod.Wdm.C69_tracer_names",
    "Halomod.Wdm.C69_setting_values"
   ],
   "note": "Missing because false: a rescaled relation of the tracers uses the keyword m_hm, 1000 by default, not the half-mode mass of the model (C69_tracer_half_mode), and cannot be named (C69_tracer_names). Proved: names with the suffix are lowered by the documented factor with the model's half-mode mass (C69_named); names without it, the default included, are used as they are (C69_default_not_rescaled; such a relation may still know about the dark matter through the variance of the density field); tracers without a relation of their own follow the haloes. hmf's registry of names is a parameter."
  },
  {
   "property": "C70",
   "status": "partial",
   "theorems": [
    "Halomod.HaloModel.C70_power_is_transform_partial",
    "Halomod.HaloModel.C70_low_wavenumbers",
    "Halomod.HaloModel.C70_unmodified",
    "Halomod.HaloModel.C70_zero_at_ends",
    "Halomod.HaloModel.C70_ends_met"
   ],
   "note": "Missing because false: with a halo-model wavenumber below 1e-2 the result is overwritten at the wrong places or fails (C70_low_wavenumbers), and with the transform of the code the power is exactly zero at small and large wavenumbers (C70_zero_at_ends, C70_ends_met). Proved: otherwise the power is the transform of the reported correlation for every exclusion class and scale-dependent bias."
  },
  {
   "property": "C71",
   "status": "partial",
   "theorems": [
    "Halomod.HaloModel.C71_two_halo_partial",
    "Halomod.HaloModel.C71_negative_between_wavenumbers",
    "Halomod.HaloModel.C71_one_halo_refined_partial",
    "Halomod.HaloModel.C71_one_halo_negative"
   ],
   "note": "Missing because false: the two-halo power can be negative between wavenumbers (C71_negative_between_wavenumbers) and the one-halo power on a fixed mass table (C71_one_halo_negative). Proved: the two-halo powers without exclusion at every tabulated wavenumber and outside the table, and the one-halo powers in the limit of a fine mass table, for every HOD."
  },
  {
   "property": "C72",
   "status": "partial",
   "theorems": [
    "Halomod.IntInput.C72_hod_partial",
    "Halomod.IntInput.C72_zheng_floor",
    "Halomod.IntInput.C72_zheng_populate",
    "Halomod.IntInput.C72_spinelli",
    "Halomod.IntInput.C72_correlation_truncated",
    "Halomod.IntInput.C72_power_to_corr",
    "Halomod.IntInput.C72_projected",
    "Halomod.IntInput.C72_ludlow"
   ],
   "note": "Missing because false: integer input is cut to whole numbers by Zheng05 (C72_zheng_floor, C72_zheng_populate), Spinelli19 satellite sources (C72_spinelli), every tabulated correlation function (C72_correlation_truncated), power_to_corr, projected_corr_gal and Ludlow16. Proved: all other HOD classes are independent of the type."
  },
  {
   "property": "C73",
   "status": "partial",
   "theorems": [
    "Halomod.Batch.C73_hod_arrays",
    "Halomod.Batch.C73_companions_do_not_matter",
    "Halomod.Batch.C73_hod_numbers_partial",
    "Halomod.Batch.C73_numbers_raise",
    "Halomod.Batch.C73_seljak04Cosmo_partial",
    "Halomod.Batch.C73_nfw_self_convolution",
    "Halomod.Batch.C73_bullock01_descending"
   ],
   "note": "Missing because false: C73_bullock01_descending, C73_numbers_raise, second half of C73_seljak04Cosmo_partial. Proved for arrays of every length and order: all public methods of every HOD class (C73_hod_arrays), Seljak04Cosmo, the NFW self-convolution with its whole-array guards; numbers of each kind wherever the code accepts them. Ludlow16: C30 (the scalar branch raises where the array branch clamps). Numerically normalised profiles depend on their companions within the bounds of C60. Numpy semantics of masks, broadcasting and scalars are modelled in Model/Batch.lean as documented by numpy."
  },
  {
   "property": "C74",
   "status": "proved",
   "theorems": [
    "Halomod.HaloModel.C74_threshold",
    "Halomod.HaloModel.C74_satellites",
    "Halomod.HaloModel.C74_without_condition_fails",
    "HaloModel.C74_zheng_threshold",
    "HaloModel.C74_zheng_satellites"
   ],
   "note": "Zehavi05: C74_threshold, C74_satellites; Zheng05: C74_zheng_threshold, C74_zheng_satellites. For every pair of parameter values the inequalities hold on all mass tables with a small enough step. C74_without_condition_fails is the finding for central=False."
  },
  {
   "property": "C75",
   "status": "proved",
   "theorems": [
    "Halomod.HaloModel.C75_zheng",
    "Halomod.HaloModel.C75_integral",
    "Halomod.HaloModel.C75_tracer",
    "Halomod.HaloModel.C75_matter_bias",
    "Halomod.HaloModel.C75_one_halo_power",
    "Halomod.HaloModel.C75_smooth",
    "Halomod.HaloModel.C75_first_order",
    "Halomod.HaloModel.C75_increasing_hod",
    "Halomod.HaloModel.C75_default",
    "Halomod.HaloModel.C75_one_halo_tracer"
   ],
   "note": "C75_integral, C75_tracer, C75_matter_bias, C75_one_halo_power, C75_one_halo_tracer for all integrands of bounded variation; C75_increasing_hod, C75_default (Zehavi05) and C75_zheng give the bound in terms of the mass function and HOD parameters; C75_smooth is the second-order bound; C75_first_order shows that the first order is attained."
  },
  {
   "property": "C76",
   "status": "proved",
   "theorems": [
    "Halomod.HaloModel.C76_averages",
    "Halomod.HaloModel.C76_one_halo_power",
    "Halomod.HaloModel.C76_two_halo_power",
    "Halomod.HaloModel.C76_total_power",
    "Halomod.HaloModel.C76_one_halo_correlation",
    "Halomod.HaloModel.C76_two_halo_correlation"
   ],
   "note": "C76_averages, C76_one_halo_power, C76_two_halo_power, C76_total_power and C76_one_halo_correlation are exact for every table, for any spline that is linear in its data; C76_two_halo_correlation holds where the transform is homogeneous (C68)."
  },
  {
   "property": "C77",
   "status": "proved",
   "theorems": [
    "Halomod.Profiles.C77_share",
    "Halomod.Profiles.C77_shapes",
    "Halomod.Profiles.C77_peaked",
    "Halomod.Profiles.C77_fraction",
    "Halomod.Profiles.C77_fraction_mass",
    "Halomod.Profiles.C77_enclosed",
    "Halomod.Profiles.C77_density",
    "Halomod.Profiles.C77_transform",
    "Halomod.Profiles.C77_constant"
   ],
   "note": "C77_shapes and C77_peaked give the classes covered; C77_enclosed, C77_density and C77_transform the three statements at fixed mass; C77_fraction and C77_fraction_mass those at a fixed fraction of the radius. Bloating is excluded from the statements at fixed radius; Moore is excluded from them because its scale radius converts the concentration twice (C23_moore_virial)."
  },
  {
   "property": "C78",
   "status": "partial",
   "theorems": [
    "Halomod.HaloModel.C78_exclusion",
    "Halomod.HaloModel.C78_averages",
    "Halomod.HaloModel.C78_one_halo_matter",
    "Halomod.HaloModel.C78_one_halo_tracer_partial",
    "Halomod.HOD.C78_occupations",
    "Halomod.HOD.C78_spinelli_hard_coded",
    "Halomod.HaloModel.C78_two_halo_power",
    "Halomod.HaloModel.C78_total_power_partial",
    "Halomod.HaloModel.C78_one_halo_correlation",
    "Halomod.HaloModel.C78_two_halo_correlation",
    "Halomod.HaloModel.C78_lower_limit_breaks",
    "Halomod.HaloModel.C78_transform",
    "Halomod.HaloModel.C78_code_correlation_partial",
    "Halomod.HaloModel.C78_tolerance_breaks",
    "Halomod.HOD.C78_leauthaud",
    "Halomod.Profiles.C78_profiles",
    "Halomod.Profiles.C78_virial_velocity",
    "Halomod.Profiles.C78_populate",
    "Halomod.Concentration.C78_concentrations",
    "Halomod.Concentration.C78_empirical_hard_coded",
    "Halomod.Bias.C78_biases"
   ],
   "note": "Proved for every halo model, all positive unit factors, all exclusion classes and scale-dependent bias: averages, exclusion, matter, cross and two-halo spectra, one-halo correlations from profiles, eight HOD classes. _partial because false beyond: C78_one_halo_tracer_partial and C78_total_power_partial need the logarithm of the minimum mass (used as a mass by the code) to stay below the mass table in both units (C78_lower_limit_breaks shows the failure, with a concrete model); C78_code_correlation_partial needs the transform's sum to end after as many chunks in both units (C78_tolerance_breaks); Spinelli19 cannot be converted (C78_spinelli_hard_coded). Leauthaud11's hard-coded 1e12*0.72 is compensated by its amplitudes (C78_leauthaud, for any interpolation that commutes with shifts). Single profiles (all classes, normalisations and coordinates), drawn positions, concentrations and biases are converted too (C78_profiles, C78_populate, C78_concentrations, C78_biases); findings: Ludlow16Empirical carries a mass (C78_empirical_hard_coded), virial_velocity the SI constant of gravity (C78_virial_velocity). Not treated: the overwriting below k_hm = 1e-2 with exclusion (C70)."
  },
  {
   "property": "C79",
   "status": "proved",
   "theorems": [
    "Halomod.HaloModel.C79_bounded",
    "Halomod.HaloModel.C79_integrals",
    "Halomod.HaloModel.C79_tracer",
    "Halomod.HaloModel.C79_relative",
    "Halomod.HaloModel.C79_matter_bias",
    "Halomod.HaloModel.C79_one_halo",
    "Halomod.HaloModel.C79_two_halo",
    "Halomod.HaloModel.C79_two_halo_root"
   ],
   "note": "C79_bounded and C79_integrals for one integral; C79_tracer, C79_matter_bias, C79_one_halo, C79_two_halo (C79_two_halo_root in terms of the spectra) for the quantities built on it; C79_relative for relative errors of the ingredients."
  },
  {
   "property": "C80",
   "status": "proved",
   "theorems": [
    "Halomod.HaloModel.C80_integrals",
    "Halomod.HaloModel.C80_tracer",
    "Halomod.HaloModel.C80_matter",
    "Halomod.HaloModel.C80_upper_end",
    "Halomod.HaloModel.C80_default",
    "Halomod.HaloModel.C80_one_halo_tracer"
   ],
   "note": "C80_integrals for one integral, C80_tracer for the averages over tracers, C80_matter for matter, C80_one_halo_tracer for the one-halo power of tracers, C80_upper_end for raising Mmax, C80_default for the default HOD."
  }
 ]
}