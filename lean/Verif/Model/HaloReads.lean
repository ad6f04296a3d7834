/-!
# What the cached quantities of the halo-model classes read

GENERATED by /verif/scripts/gen_reads.py from the sources in /repo (do not edit): the nodes are the attributes of
`DMHaloModel`, `TracerHaloModel` (halo_model.py), `ProjectedCF` and `AngularCF` (integrate_corr.py); for each
property, cached quantity and public method the list holds every attribute of `self` its source text mentions
(private methods and `tools.norm_warn` inlined).  Simplifications: attributes inherited from `hmf` are cached quantities
that read one parameter `hmfInputs`, standing for all parameters of `hmf`; `update`, `validate` and the
density matching are modelled elsewhere (Model/HaloState.lean, Model/Components.lean).
-/
namespace Halomod.Framework

/-- How an attribute is declared: a plain attribute written in `__init__`, a `@parameter`, a
`@cached_quantity`, or an uncached property or method. -/
inductive Kind | attr | param | cached | plain
  deriving DecidableEq, Repr

/-- The attributes; see the head of this file. -/
inductive Node
  | Mmax | Mmin | _central_occupation | _corr_mm_base_fnc | _logr_table_max | _logr_table_min
  | _matter_exclusion | _power0 | _power_halo_centres_fnc | _r_table | _tm | _total_occupation
  | _tracer_exclusion | angular_corr_gal | angular_corr_matter | bias | bias_effective_matter | bias_effective_tracer
  | bias_model | bias_params | central_fraction | central_occupation | check_p_norm | cmz_relation
  | colossus_cosmo | colossus_params | corr_1h_auto_matter | corr_1h_auto_matter_fnc | corr_1h_auto_tracer | corr_1h_auto_tracer_fnc
  | corr_1h_cross_tracer_matter | corr_1h_cross_tracer_matter_fnc | corr_1h_cs_auto_tracer | corr_1h_cs_auto_tracer_fnc | corr_1h_ss_auto_tracer | corr_1h_ss_auto_tracer_fnc
  | corr_2h_auto_matter | corr_2h_auto_matter_fnc | corr_2h_auto_tracer | corr_2h_auto_tracer_fnc | corr_2h_cross_tracer_matter | corr_2h_cross_tracer_matter_fnc
  | corr_auto_matter | corr_auto_matter_fnc | corr_auto_tracer | corr_auto_tracer_fnc | corr_cross_tracer_matter | corr_cross_tracer_matter_fnc
  | corr_halofit_mm | corr_halofit_mm_fnc | corr_linear_mm | corr_linear_mm_fnc | cosmo | delta_c
  | dlog10m | dndm | dr_table | exclusion_model | exclusion_params | filter
  | force_1halo_turnover | force_unity_dm_bias | growth | halo_bias | halo_concentration | halo_concentration_model
  | halo_concentration_params | halo_overdensity_mean | halo_profile | halo_profile_lam | halo_profile_model | halo_profile_params
  | halo_profile_rho | halo_profile_ukm | hc_spectrum | hm_dlog10k | hm_logk_max | hm_logk_min
  | hmf | hmfInputs | hmf_model | hod | hod_model | hod_params
  | k | k_hm | linear_power_fnc | logu_max | logu_min | m
  | mass_effective | mass_nonlinear | mdef | mean_density0 | mean_density_in_halos | mean_tracer_den
  | mean_tracer_den_unit | n | n_eff | nonlinear_power | nonlinear_power_fnc | nu
  | nu_fn | p1 | p2 | p_of_z | power | power_1h_auto_matter
  | power_1h_auto_matter_fnc | power_1h_auto_tracer | power_1h_auto_tracer_fnc | power_1h_cross_tracer_matter | power_1h_cross_tracer_matter_fnc | power_1h_cs_auto_tracer
  | power_1h_cs_auto_tracer_fnc | power_1h_ss_auto_tracer | power_1h_ss_auto_tracer_fnc | power_2h_auto_matter | power_2h_auto_matter_fnc | power_2h_auto_tracer
  | power_2h_auto_tracer_fnc | power_2h_cross_tracer_matter | power_2h_cross_tracer_matter_fnc | power_auto_matter | power_auto_matter_fnc | power_auto_tracer
  | power_auto_tracer_fnc | power_cross_tracer_matter | power_cross_tracer_matter_fnc | power_hh | proj_limit | projected_corr_gal
  | r | rho_gtm | rlim | rlog | rmax | rmin
  | rnum | rp | rp_log | rp_max | rp_min | rp_num
  | satellite_fraction | satellite_occupation | sd_bias | sd_bias_correction | sd_bias_model | sd_bias_params
  | sigma_8 | theta | theta_log | theta_max | theta_min | theta_num
  | total_occupation | tracer_cmz_relation | tracer_concentration | tracer_concentration_model | tracer_concentration_params | tracer_density
  | tracer_density_m | tracer_mmin | tracer_profile | tracer_profile_lam | tracer_profile_model | tracer_profile_params
  | tracer_profile_rho | tracer_profile_ukm | unum | uvec | xvec | z
  | zmax | zmin | znum | zvec
  deriving DecidableEq, Repr

/-- How each attribute is declared in halo_model.py and integrate_corr.py (line ranges in `reads`). -/
def Node.kind : Node → Kind
  | ._logr_table_max | ._logr_table_min | .force_unity_dm_bias => .attr
  | .bias_model | .bias_params | .check_p_norm | .colossus_params | .dr_table => .param
  | .exclusion_model | .exclusion_params | .force_1halo_turnover | .halo_concentration_model | .halo_concentration_params => .param
  | .halo_profile_model | .halo_profile_params | .hc_spectrum | .hm_dlog10k | .hm_logk_max => .param
  | .hm_logk_min | .hmfInputs | .hod_model | .hod_params | .logu_max => .param
  | .logu_min | .p1 | .p2 | .p_of_z | .proj_limit => .param
  | .rlog | .rmax | .rmin | .rnum | .rp_log => .param
  | .rp_max | .rp_min | .rp_num | .sd_bias_model | .sd_bias_params => .param
  | .theta_log | .theta_max | .theta_min | .theta_num | .tracer_concentration_model => .param
  | .tracer_concentration_params | .tracer_density | .tracer_profile_model | .tracer_profile_params | .unum => .param
  | .zmax | .zmin | .znum => .param
  | ._central_occupation | ._total_occupation | .corr_1h_auto_matter | .corr_1h_auto_tracer | .corr_1h_cross_tracer_matter => .plain
  | .corr_1h_cs_auto_tracer | .corr_1h_ss_auto_tracer | .corr_2h_auto_matter | .corr_2h_auto_tracer | .corr_2h_cross_tracer_matter => .plain
  | .corr_auto_matter | .corr_auto_tracer | .corr_auto_tracer_fnc | .corr_cross_tracer_matter | .power_1h_auto_matter => .plain
  | .power_1h_auto_tracer | .power_1h_cross_tracer_matter | .power_1h_cs_auto_tracer | .power_1h_ss_auto_tracer | .power_2h_auto_matter => .plain
  | .power_2h_auto_tracer | .power_2h_cross_tracer_matter | .power_auto_matter | .power_auto_tracer | .power_auto_tracer_fnc => .plain
  | .power_cross_tracer_matter | .power_hh | .tracer_mmin => .plain
  | _ => .cached

/-- The attributes each one's source mentions: halo_model.py and integrate_corr.py, lines given per row. -/
def Node.reads : Node → List Node
  -- TracerHaloModel, halo_model.py:1191-1202
  | ._central_occupation => [.central_occupation, .hod, .m]
  -- DMHaloModel, halo_model.py:557-562
  | ._corr_mm_base_fnc => [.corr_halofit_mm_fnc, .corr_linear_mm_fnc, .hc_spectrum]
  -- DMHaloModel, halo_model.py:697-713
  | ._matter_exclusion => [._r_table, .dndm, .exclusion_model, .exclusion_params, .halo_bias,
      .halo_overdensity_mean, .halo_profile_ukm, .m, .mean_density0, .mean_density_in_halos,
      .sd_bias_correction, .sd_bias_model]
  -- DMHaloModel, halo_model.py:453-500
  | ._power_halo_centres_fnc => [.hc_spectrum, .k, .linear_power_fnc, .nonlinear_power,
      .nonlinear_power_fnc, .power]
  -- DMHaloModel, halo_model.py:337-339
  | ._r_table => [._logr_table_max, ._logr_table_min, .dr_table]
  -- TracerHaloModel, halo_model.py:1063-1078
  | ._tm => [.Mmin, .hod, .m]
  -- TracerHaloModel, halo_model.py:1205-1210
  | ._total_occupation => [._central_occupation, .satellite_occupation]
  -- TracerHaloModel, halo_model.py:1486-1507
  | ._tracer_exclusion => [._r_table, ._total_occupation, .dndm, .exclusion_model, .exclusion_params,
      .halo_bias, .halo_overdensity_mean, .m, .mean_density0, .mean_tracer_den, .sd_bias_correction,
      .sd_bias_model, .tracer_mmin, .tracer_profile_ukm]
  -- AngularCF, integrate_corr.py:411-437
  | .angular_corr_gal => [.check_p_norm, .corr_auto_tracer_fnc, .cosmo, .logu_max, .logu_min, .p1, .p2,
      .p_of_z, .theta, .unum, .zmax, .zmin, .znum]
  -- AngularCF, integrate_corr.py:440-467
  | .angular_corr_matter => [.check_p_norm, .corr_auto_matter_fnc, .cosmo, .logu_max, .logu_min, .p1,
      .p2, .p_of_z, .theta, .unum, .zmax, .zmin, .znum]
  -- DMHaloModel, halo_model.py:370-383
  | .bias => [.bias_model, .bias_params, .cosmo, .delta_c, .halo_overdensity_mean, .m, .mass_nonlinear,
      .n, .n_eff, .nu, .sigma_8]
  -- DMHaloModel, halo_model.py:873-896
  | .bias_effective_matter => [.dndm, .force_unity_dm_bias, .halo_bias, .m, .mean_density_in_halos]
  -- TracerHaloModel, halo_model.py:1248-1256
  | .bias_effective_tracer => [._total_occupation, .dndm, .halo_bias, .m, .mean_tracer_den, .tracer_mmin]
  -- TracerHaloModel, halo_model.py:1281-1286
  | .central_fraction => [.satellite_fraction]
  -- TracerHaloModel, halo_model.py:1186-1188
  | .central_occupation => [.hod, .m]
  -- DMHaloModel, halo_model.py:437-439
  | .cmz_relation => [.halo_concentration, .m, .z]
  -- DMHaloModel, halo_model.py:342-349
  | .colossus_cosmo => [.colossus_params, .cosmo, .n, .sigma_8]
  -- DMHaloModel, halo_model.py:692-694
  | .corr_1h_auto_matter => [.corr_1h_auto_matter_fnc, .r]
  -- DMHaloModel, halo_model.py:672-689
  | .corr_1h_auto_matter_fnc => [._r_table, .dlog10m, .dndm, .halo_profile, .halo_profile_lam, .m,
      .mean_density0, .power_1h_auto_matter_fnc]
  -- TracerHaloModel, halo_model.py:1481-1483
  | .corr_1h_auto_tracer => [.corr_1h_auto_tracer_fnc, .r]
  -- TracerHaloModel, halo_model.py:1448-1478
  | .corr_1h_auto_tracer_fnc => [._central_occupation, ._r_table, .corr_1h_cs_auto_tracer_fnc,
      .corr_1h_ss_auto_tracer_fnc, .dndm, .hod, .m, .mean_tracer_den, .power_1h_auto_tracer_fnc, .r,
      .tracer_mmin, .tracer_profile, .tracer_profile_lam, .tracer_profile_rho]
  -- TracerHaloModel, halo_model.py:1591-1593
  | .corr_1h_cross_tracer_matter => [.corr_1h_cross_tracer_matter_fnc, .r]
  -- TracerHaloModel, halo_model.py:1583-1588
  | .corr_1h_cross_tracer_matter_fnc => [._r_table, .power_1h_cross_tracer_matter_fnc]
  -- TracerHaloModel, halo_model.py:1428-1433
  | .corr_1h_cs_auto_tracer => [.corr_1h_cs_auto_tracer_fnc, .r]
  -- TracerHaloModel, halo_model.py:1408-1425
  | .corr_1h_cs_auto_tracer_fnc => [._r_table, .dndm, .hod, .m, .mean_tracer_den, .tracer_mmin,
      .tracer_profile_rho]
  -- TracerHaloModel, halo_model.py:1370-1376
  | .corr_1h_ss_auto_tracer => [.corr_1h_ss_auto_tracer_fnc, .r]
  -- TracerHaloModel, halo_model.py:1347-1367
  | .corr_1h_ss_auto_tracer_fnc => [._r_table, .dndm, .hod, .m, .mean_tracer_den,
      .power_1h_ss_auto_tracer_fnc, .tracer_mmin, .tracer_profile, .tracer_profile_lam]
  -- DMHaloModel, halo_model.py:803-807
  | .corr_2h_auto_matter => [.corr_2h_auto_matter_fnc, .r]
  -- DMHaloModel, halo_model.py:791-800
  | .corr_2h_auto_matter_fnc => [._matter_exclusion, ._power_halo_centres_fnc, ._r_table, .bias,
      .bias_effective_matter, .bias_model, .exclusion_model, .force_unity_dm_bias, .hc_spectrum, .hmf,
      .hmf_model, .k, .linear_power_fnc]
  -- TracerHaloModel, halo_model.py:1531-1533
  | .corr_2h_auto_tracer => [.corr_2h_auto_tracer_fnc, .r]
  -- TracerHaloModel, halo_model.py:1524-1528
  | .corr_2h_auto_tracer_fnc => [._power_halo_centres_fnc, ._r_table, ._tracer_exclusion,
      .bias_effective_tracer, .exclusion_model, .hc_spectrum, .k, .linear_power_fnc]
  -- TracerHaloModel, halo_model.py:1639-1641
  | .corr_2h_cross_tracer_matter => [.corr_2h_cross_tracer_matter_fnc, .r]
  -- TracerHaloModel, halo_model.py:1631-1636
  | .corr_2h_cross_tracer_matter_fnc => [._r_table, .power_2h_cross_tracer_matter_fnc]
  -- DMHaloModel, halo_model.py:855-857
  | .corr_auto_matter => [.corr_auto_matter_fnc, .r]
  -- DMHaloModel, halo_model.py:848-852
  | .corr_auto_matter_fnc => [.corr_1h_auto_matter_fnc, .corr_2h_auto_matter_fnc]
  -- TracerHaloModel, halo_model.py:1550-1552
  | .corr_auto_tracer => [.corr_auto_tracer_fnc, .r]
  -- TracerHaloModel, halo_model.py:1545-1547
  | .corr_auto_tracer_fnc => [.corr_1h_auto_tracer_fnc, .corr_2h_auto_tracer_fnc]
  -- TracerHaloModel, halo_model.py:1665-1667
  | .corr_cross_tracer_matter => [.corr_cross_tracer_matter_fnc, .r]
  -- TracerHaloModel, halo_model.py:1656-1662
  | .corr_cross_tracer_matter_fnc => [.corr_1h_cross_tracer_matter_fnc, .corr_2h_cross_tracer_matter_fnc]
  -- DMHaloModel, halo_model.py:552-554
  | .corr_halofit_mm => [.corr_halofit_mm_fnc, .r]
  -- DMHaloModel, halo_model.py:541-549
  | .corr_halofit_mm_fnc => [._r_table, .nonlinear_power_fnc]
  -- DMHaloModel, halo_model.py:536-538
  | .corr_linear_mm => [.corr_linear_mm_fnc, .r]
  -- DMHaloModel, halo_model.py:525-533
  | .corr_linear_mm_fnc => [._r_table, .linear_power_fnc]
  -- DMHaloModel, halo_model.py:432-434
  | .halo_bias => [.bias]
  -- DMHaloModel, halo_model.py:386-408
  | .halo_concentration => [._power0, .cosmo, .delta_c, .filter, .growth, .halo_concentration_model,
      .halo_concentration_params, .halo_profile_model, .halo_profile_params, .mdef, .n, .nu_fn,
      .sigma_8, .z]
  -- DMHaloModel, halo_model.py:411-419
  | .halo_profile => [.halo_concentration, .halo_profile_model, .halo_profile_params, .mdef, .nu_fn, .z]
  -- DMHaloModel, halo_model.py:625-630
  | .halo_profile_lam => [._r_table, .cmz_relation, .halo_profile, .m]
  -- DMHaloModel, halo_model.py:620-622
  | .halo_profile_rho => [._r_table, .cmz_relation, .halo_profile, .m]
  -- DMHaloModel, halo_model.py:615-617
  | .halo_profile_ukm => [.cmz_relation, .halo_profile, .k, .m]
  -- TracerHaloModel, halo_model.py:1162-1170
  | .hod => [.cosmo, .hod_model, .hod_params, .mdef, .tracer_concentration, .tracer_profile]
  -- DMHaloModel, halo_model.py:352-357
  | .k_hm => [.hm_dlog10k, .hm_logk_max, .hm_logk_min]
  -- DMHaloModel, halo_model.py:503-511
  | .linear_power_fnc => [.k, .n, .power]
  -- TracerHaloModel, halo_model.py:1259-1266
  | .mass_effective => [._total_occupation, .dndm, .m, .mean_tracer_den, .tracer_mmin]
  -- DMHaloModel, halo_model.py:899-900
  | .mean_density_in_halos => [.rho_gtm]
  -- TracerHaloModel, halo_model.py:1230-1240
  | .mean_tracer_den => [._total_occupation, .dndm, .m, .tracer_mmin]
  -- TracerHaloModel, halo_model.py:1243-1245
  | .mean_tracer_den_unit => [.cosmo, .hod, .mean_tracer_den, .z]
  -- DMHaloModel, halo_model.py:514-522
  | .nonlinear_power_fnc => [.k, .n, .nonlinear_power]
  -- DMHaloModel, halo_model.py:667-669
  | .power_1h_auto_matter => [.k_hm, .power_1h_auto_matter_fnc]
  -- DMHaloModel, halo_model.py:651-664
  | .power_1h_auto_matter_fnc => [.dndm, .force_1halo_turnover, .halo_overdensity_mean,
      .halo_profile_ukm, .k, .m, .mean_density0]
  -- TracerHaloModel, halo_model.py:1443-1445
  | .power_1h_auto_tracer => [.k_hm, .power_1h_auto_tracer_fnc]
  -- TracerHaloModel, halo_model.py:1436-1440
  | .power_1h_auto_tracer_fnc => [.power_1h_cs_auto_tracer_fnc, .power_1h_ss_auto_tracer_fnc]
  -- TracerHaloModel, halo_model.py:1578-1580
  | .power_1h_cross_tracer_matter => [.k_hm, .power_1h_cross_tracer_matter_fnc]
  -- TracerHaloModel, halo_model.py:1558-1575
  | .power_1h_cross_tracer_matter_fnc => [._central_occupation, .dndm, .halo_profile_ukm, .k, .m,
      .mean_density0, .mean_tracer_den, .satellite_occupation, .tracer_mmin, .tracer_profile_ukm]
  -- TracerHaloModel, halo_model.py:1400-1405
  | .power_1h_cs_auto_tracer => [.k_hm, .power_1h_cs_auto_tracer_fnc]
  -- TracerHaloModel, halo_model.py:1379-1397
  | .power_1h_cs_auto_tracer_fnc => [.dndm, .force_1halo_turnover, .halo_overdensity_mean, .hod, .k, .m,
      .mean_density0, .mean_tracer_den, .tracer_profile_ukm]
  -- TracerHaloModel, halo_model.py:1339-1344
  | .power_1h_ss_auto_tracer => [.k_hm, .power_1h_ss_auto_tracer_fnc]
  -- TracerHaloModel, halo_model.py:1319-1336
  | .power_1h_ss_auto_tracer_fnc => [.dndm, .force_1halo_turnover, .halo_overdensity_mean, .hod, .k, .m,
      .mean_density0, .mean_tracer_den, .tracer_profile_ukm]
  -- DMHaloModel, halo_model.py:843-845
  | .power_2h_auto_matter => [.k_hm, .power_2h_auto_matter_fnc]
  -- DMHaloModel, halo_model.py:833-840
  | .power_2h_auto_matter_fnc => [._matter_exclusion, ._power_halo_centres_fnc, ._r_table, .bias,
      .bias_effective_matter, .bias_model, .exclusion_model, .force_unity_dm_bias, .hc_spectrum, .hmf,
      .hmf_model, .k, .k_hm, .linear_power_fnc, .power, .sd_bias_model]
  -- TracerHaloModel, halo_model.py:1519-1521
  | .power_2h_auto_tracer => [.k_hm, .power_2h_auto_tracer_fnc]
  -- TracerHaloModel, halo_model.py:1510-1516
  | .power_2h_auto_tracer_fnc => [._power_halo_centres_fnc, ._r_table, ._tracer_exclusion,
      .bias_effective_tracer, .exclusion_model, .hc_spectrum, .k, .k_hm, .linear_power_fnc, .power,
      .sd_bias_model]
  -- TracerHaloModel, halo_model.py:1626-1628
  | .power_2h_cross_tracer_matter => [.k_hm, .power_2h_cross_tracer_matter_fnc]
  -- TracerHaloModel, halo_model.py:1596-1623
  | .power_2h_cross_tracer_matter_fnc => [._central_occupation, ._power_halo_centres_fnc, .dndm,
      .halo_bias, .halo_profile_ukm, .hc_spectrum, .k, .m, .mean_density0, .mean_tracer_den,
      .satellite_occupation, .tracer_mmin, .tracer_profile_ukm]
  -- DMHaloModel, halo_model.py:865-867
  | .power_auto_matter => [.k_hm, .power_auto_matter_fnc]
  -- DMHaloModel, halo_model.py:860-862
  | .power_auto_matter_fnc => [.power_1h_auto_matter_fnc, .power_2h_auto_matter_fnc]
  -- TracerHaloModel, halo_model.py:1540-1542
  | .power_auto_tracer => [.k_hm, .power_auto_tracer_fnc]
  -- TracerHaloModel, halo_model.py:1536-1537
  | .power_auto_tracer_fnc => [.power_1h_auto_tracer_fnc, .power_2h_auto_tracer_fnc]
  -- TracerHaloModel, halo_model.py:1651-1653
  | .power_cross_tracer_matter => [.k_hm, .power_cross_tracer_matter_fnc]
  -- TracerHaloModel, halo_model.py:1644-1648
  | .power_cross_tracer_matter_fnc => [.power_1h_cross_tracer_matter_fnc,
      .power_2h_cross_tracer_matter_fnc]
  -- DMHaloModel, halo_model.py:564-609
  | .power_hh => [.Mmax, .Mmin, ._power_halo_centres_fnc, .bias, .dndm, .halo_bias, .m]
  -- ProjectedCF, integrate_corr.py:113-121
  | .projected_corr_gal => [.corr_auto_tracer, .r, .rlim, .rp]
  -- AngularCF, integrate_corr.py:404-408
  | .r => [.logu_max, .logu_min, .rnum, .theta, .xvec]
  -- ProjectedCF, integrate_corr.py:100-105
  | .rlim => [.proj_limit, .rp]
  -- ProjectedCF, integrate_corr.py:87-97
  | .rp => [.rp_log, .rp_max, .rp_min, .rp_num]
  -- TracerHaloModel, halo_model.py:1269-1278
  | .satellite_fraction => [.dndm, .m, .mean_tracer_den, .satellite_occupation, .tracer_mmin]
  -- TracerHaloModel, halo_model.py:1181-1183
  | .satellite_occupation => [.hod, .m]
  -- DMHaloModel, halo_model.py:422-429
  | .sd_bias => [._r_table, .corr_halofit_mm_fnc, .sd_bias_model, .sd_bias_params]
  -- DMHaloModel, halo_model.py:445-450
  | .sd_bias_correction => [.sd_bias]
  -- AngularCF, integrate_corr.py:393-401
  | .theta => [.theta_log, .theta_max, .theta_min, .theta_num]
  -- TracerHaloModel, halo_model.py:1176-1178
  | .total_occupation => [.hod, .m]
  -- TracerHaloModel, halo_model.py:1138-1140
  | .tracer_cmz_relation => [.m, .tracer_concentration, .z]
  -- TracerHaloModel, halo_model.py:1081-1135
  | .tracer_concentration => [._power0, .cosmo, .delta_c, .filter, .growth, .halo_concentration,
      .halo_concentration_model, .halo_concentration_params, .halo_profile_model, .halo_profile_params,
      .mdef, .n, .nu_fn, .sigma_8, .tracer_concentration_model, .tracer_concentration_params,
      .tracer_profile_model, .tracer_profile_params, .z]
  -- TracerHaloModel, halo_model.py:1289-1291
  | .tracer_density_m => [.dndm, .total_occupation]
  -- TracerHaloModel, halo_model.py:1213-1224
  | .tracer_mmin => [.hod]
  -- TracerHaloModel, halo_model.py:1143-1159
  | .tracer_profile => [.halo_profile, .halo_profile_model, .halo_profile_params, .mdef, .nu_fn,
      .tracer_concentration, .tracer_profile_model, .tracer_profile_params, .z]
  -- TracerHaloModel, halo_model.py:1307-1312
  | .tracer_profile_lam => [._r_table, .m, .tracer_cmz_relation, .tracer_profile]
  -- TracerHaloModel, halo_model.py:1302-1304
  | .tracer_profile_rho => [._r_table, .m, .tracer_cmz_relation, .tracer_profile]
  -- TracerHaloModel, halo_model.py:1297-1299
  | .tracer_profile_ukm => [.k, .m, .tracer_cmz_relation, .tracer_profile]
  -- AngularCF, integrate_corr.py:383-385
  | .uvec => [.logu_max, .logu_min, .unum]
  -- AngularCF, integrate_corr.py:388-390
  | .xvec => [.cosmo, .zvec]
  -- AngularCF, integrate_corr.py:378-380
  | .zvec => [.zmax, .zmin, .znum]
  -- inherited from hmf
  | .Mmax | .Mmin | ._power0 | .cosmo | .delta_c | .dlog10m => [.hmfInputs]
  | .dndm | .filter | .growth | .halo_overdensity_mean | .hmf | .hmf_model => [.hmfInputs]
  | .k | .m | .mass_nonlinear | .mdef | .mean_density0 | .n => [.hmfInputs]
  | .n_eff | .nonlinear_power | .nu | .nu_fn | .power | .rho_gtm => [.hmfInputs]
  | .sigma_8 | .z => [.hmfInputs]
  | _ => []

/-- Height of each attribute in the graph of reads (longest chain below it). -/
def Node.rank : Node → Nat
  | .Mmax | .Mmin | ._power0 | ._r_table | .cosmo => 1
  | .delta_c | .dlog10m | .dndm | .filter | .growth => 1
  | .halo_overdensity_mean | .hmf | .hmf_model | .k | .k_hm => 1
  | .m | .mass_nonlinear | .mdef | .mean_density0 | .n => 1
  | .n_eff | .nonlinear_power | .nu | .nu_fn | .power => 1
  | .rho_gtm | .rp | .sigma_8 | .theta | .uvec => 1
  | .z | .zvec => 1
  | .bias | .colossus_cosmo | .halo_concentration | .linear_power_fnc | .mean_density_in_halos => 2
  | .nonlinear_power_fnc | .rlim | .xvec => 2
  | ._power_halo_centres_fnc | .cmz_relation | .corr_halofit_mm_fnc | .corr_linear_mm_fnc | .halo_bias => 3
  | .halo_profile | .r | .tracer_concentration => 3
  | ._corr_mm_base_fnc | .bias_effective_matter | .corr_halofit_mm | .corr_linear_mm | .halo_profile_lam => 4
  | .halo_profile_rho | .halo_profile_ukm | .power_hh | .sd_bias | .tracer_cmz_relation => 4
  | .tracer_profile => 4
  | .hod | .power_1h_auto_matter_fnc | .sd_bias_correction | .tracer_profile_lam | .tracer_profile_rho => 5
  | .tracer_profile_ukm => 5
  | ._matter_exclusion | ._tm | .central_occupation | .corr_1h_auto_matter_fnc | .power_1h_auto_matter => 6
  | .satellite_occupation | .total_occupation | .tracer_mmin => 6
  | ._central_occupation | .corr_1h_auto_matter | .corr_2h_auto_matter_fnc | .power_2h_auto_matter_fnc | .tracer_density_m => 7
  | ._total_occupation | .corr_2h_auto_matter | .corr_auto_matter_fnc | .power_2h_auto_matter | .power_auto_matter_fnc => 8
  | .angular_corr_matter | .corr_auto_matter | .mean_tracer_den | .power_auto_matter => 9
  | ._tracer_exclusion | .bias_effective_tracer | .corr_1h_cs_auto_tracer_fnc | .mass_effective | .mean_tracer_den_unit => 10
  | .power_1h_cross_tracer_matter_fnc | .power_1h_cs_auto_tracer_fnc | .power_1h_ss_auto_tracer_fnc | .power_2h_cross_tracer_matter_fnc | .satellite_fraction => 10
  | .central_fraction | .corr_1h_cross_tracer_matter_fnc | .corr_1h_cs_auto_tracer | .corr_1h_ss_auto_tracer_fnc | .corr_2h_auto_tracer_fnc => 11
  | .corr_2h_cross_tracer_matter_fnc | .power_1h_auto_tracer_fnc | .power_1h_cross_tracer_matter | .power_1h_cs_auto_tracer | .power_1h_ss_auto_tracer => 11
  | .power_2h_auto_tracer_fnc | .power_2h_cross_tracer_matter | .power_cross_tracer_matter_fnc => 11
  | .corr_1h_auto_tracer_fnc | .corr_1h_cross_tracer_matter | .corr_1h_ss_auto_tracer | .corr_2h_auto_tracer | .corr_2h_cross_tracer_matter => 12
  | .corr_cross_tracer_matter_fnc | .power_1h_auto_tracer | .power_2h_auto_tracer | .power_auto_tracer_fnc | .power_cross_tracer_matter => 12
  | .corr_1h_auto_tracer | .corr_auto_tracer_fnc | .corr_cross_tracer_matter | .power_auto_tracer => 13
  | .angular_corr_gal | .corr_auto_tracer => 14
  | .projected_corr_gal => 15
  | _ => 0

end Halomod.Framework
