{
 "claims": [
  {
   "property": "C01",
   "status": "proved",
   "theorems": [
    "Verif.Panel.C01_makeBalanced_keeps_fully_observed",
    "Verif.Panel.C01_makeBalanced_selects_whole_units"
   ],
   "note": ""
  },
  {
   "property": "C02",
   "status": "proved",
   "theorems": [
    "Verif.Panel.C02_makeBalanced_idempotent_balanced",
    "Verif.Panel.C02_output_balanced_violated",
    "Verif.Panel.C02_idempotent_violated"
   ],
   "note": "proved for duplicate-free panels; both claims shown to fail with duplicate rows (…_violated)"
  },
  {
   "property": "C03",
   "status": "proved",
   "theorems": [
    "Verif.Panel.C03_completeData_default_eq",
    "Verif.Panel.C03_completeData_threshold",
    "Verif.Panel.C03_completeData_monotone"
   ],
   "note": ""
  },
  {
   "property": "C04",
   "status": "proved",
   "theorems": [
    "Verif.Panel.C04_balance_checks_agree"
   ],
   "note": ""
  },
  {
   "property": "C05",
   "status": "proved",
   "theorems": [
    "Verif.Panel.C05_fillGaps_complete",
    "Verif.Panel.C05_fillGaps_idempotent"
   ],
   "note": ""
  },
  {
   "property": "C06",
   "status": "proved",
   "theorems": [
    "Verif.Panel.C06_scanGaps_exact"
   ],
   "note": ""
  },
  {
   "property": "C07",
   "status": "proved",
   "theorems": [
    "Verif.Panel.C07_deduplicate_spec",
    "Verif.Panel.C07_deduplicate_unchanged_idempotent"
   ],
   "note": ""
  },
  {
   "property": "C08",
   "status": "proved",
   "theorems": [
    "Verif.Panel.C08_diagnose_consistent",
    "Verif.Panel.C08_documented_duplicate_count_violated",
    "Verif.Panel.C08_nSingle_spec",
    "Verif.Panel.C08_isVarying_spec",
    "Verif.Panel.C08_nEarly_spec",
    "Verif.Panel.C08_rc_ids"
   ],
   "note": "consistency proved; the documented meaning of the duplicate count is refuted (…_violated)"
  },
  {
   "property": "C09",
   "status": "proved",
   "theorems": [
    "Verif.Panel.C09_getGroup_first_treated",
    "Verif.Panel.C09_getGroup_zero_iff_never",
    "Verif.Panel.C09_getGroup_period_zero_violated",
    "Verif.Panel.C09_getGroupPeriod_spec"
   ],
   "note": ""
  },
  {
   "property": "C10",
   "status": "proved",
   "theorems": [
    "Verif.Panel.C10_firstDifference_telescopes"
   ],
   "note": ""
  },
  {
   "property": "C11",
   "status": "proved",
   "theorems": [
    "Verif.Panel.C11_wide_long_roundtrip",
    "Verif.Panel.C11_ambiguous_stub_violated",
    "Verif.Panel.C11_constant_stub_violated"
   ],
   "note": ""
  },
  {
   "property": "C12",
   "status": "proved",
   "theorems": [
    "Verif.Panel.C12_dddSubgroup_table",
    "Verif.Panel.C12_cell_subgroup_agrees",
    "Verif.Panel.C12_cell_subgroup_violated"
   ],
   "note": "table proved; agreement with the in-cell recomputation proved for a 0/1 eligibility column and refuted otherwise"
  },
  {
   "property": "C13",
   "status": "proved",
   "theorems": [
    "Verif.Prep.C13_encode_canonical",
    "Verif.Prep.C13_encode_idempotent"
   ],
   "note": ""
  },
  {
   "property": "C14",
   "status": "proved",
   "theorems": [
    "Verif.Prep.C14_weights_mean_one",
    "Verif.Prep.C14_weights_scale_free",
    "Verif.Prep.C14_weights_common_factor"
   ],
   "note": ""
  },
  {
   "property": "C15",
   "status": "proved",
   "theorems": [
    "Verif.Prep.C15_early_units_removed"
   ],
   "note": ""
  },
  {
   "property": "C16",
   "status": "proved",
   "theorems": [
    "Verif.Prep.C16_base_period_exists",
    "Verif.Prep.C16_base_period_violated"
   ],
   "note": ""
  },
  {
   "property": "C17",
   "status": "proved",
   "theorems": [
    "Verif.Prep.C17_comparison_group_exists",
    "Verif.Prep.C17_controlGroup_step"
   ],
   "note": ""
  },
  {
   "property": "C18",
   "status": "proved",
   "theorems": [
    "Verif.Prep.C18_outcomes_aligned",
    "Verif.Prep.C18_pipeline_aligned",
    "Verif.Prep.C18_differences_within_unit"
   ],
   "note": ""
  },
  {
   "property": "C19",
   "status": "proved",
   "theorems": [
    "Verif.Prep.C19_panel_roles",
    "Verif.Prep.C19_rc_roles",
    "Verif.Prep.C19_role_spec",
    "Verif.Prep.C19_pipeline_roles"
   ],
   "note": ""
  },
  {
   "property": "C20",
   "status": "proved",
   "theorems": [
    "Verif.Prep.C20_row_order_irrelevant"
   ],
   "note": ""
  },
  {
   "property": "C21",
   "status": "proved",
   "theorems": [
    "Verif.AttGt.C21_varying_post",
    "Verif.AttGt.C21_varying_pre",
    "Verif.AttGt.C21_universal",
    "Verif.AttGt.C21_universal_constant",
    "Verif.AttGt.C21_anticipation_free_base_violated"
   ],
   "note": ""
  },
  {
   "property": "C22",
   "status": "proved",
   "theorems": [
    "Verif.AttGt.C22_cells_enumerated",
    "Verif.AttGt.C22_results_aligned",
    "Verif.AttGt.C22_post_flag",
    "Verif.AttGt.C22_labels"
   ],
   "note": ""
  },
  {
   "property": "C23",
   "status": "proved",
   "theorems": [
    "Verif.Parallel.C23_schedule_irrelevant",
    "Verif.Parallel.C23_always_terminates",
    "Verif.Parallel.C23_outcome_reachable",
    "Verif.Parallel.C23_same_exception_violated"
   ],
   "note": ""
  },
  {
   "property": "C24",
   "status": "proved",
   "theorems": [
    "Verif.AttGt.C24_influence_rescaled",
    "Verif.AttGt.C24_average_preserved",
    "Verif.AttGt.C24_unbalanced_average",
    "Verif.AttGt.C24_unbalanced_zero"
   ],
   "note": ""
  },
  {
   "property": "C25",
   "status": "proved",
   "theorems": [
    "Verif.DR.C25_dr_no_covariates",
    "Verif.DR.C25_reg_no_covariates",
    "Verif.DR.C25_ipw_no_covariates",
    "Verif.DR.C25_dr_all_trimmed"
   ],
   "note": ""
  },
  {
   "property": "C26",
   "status": "proved",
   "theorems": [
    "Verif.DR.C26_weight_scale",
    "Verif.DR.C26_dr_outcome_shift",
    "Verif.DR.C26_ipw_outcome_shift",
    "Verif.DR.C26_reg_outcome_shift"
   ],
   "note": ""
  },
  {
   "property": "C27",
   "status": "proved",
   "theorems": [
    "Verif.DR.C27_dr_panel",
    "Verif.DR.C27_reg_panel",
    "Verif.DR.C27_ipw_panel",
    "Verif.DR.C27_imp_panel",
    "Verif.DR.C27_ipw_rc",
    "Verif.DR.C27_reg_rc",
    "Verif.DR.C27_trad_rc",
    "Verif.DR.C27_dr_rc"
   ],
   "note": ""
  },
  {
   "property": "C28",
   "status": "proved",
   "theorems": [
    "Verif.DR.C28_exact_outcome_model",
    "Verif.DR.C28_balancing_scores",
    "Verif.DR.C28_recovers_effect"
   ],
   "note": ""
  },
  {
   "property": "C29",
   "status": "proved",
   "theorems": [
    "Verif.DR.C29_ipw_no_covariates",
    "Verif.DR.C29_trad_no_covariates",
    "Verif.DR.C29_dr_no_covariates",
    "Verif.DR.C29_reg_no_covariates"
   ],
   "note": ""
  },
  {
   "property": "C30",
   "status": "proved",
   "theorems": [
    "Verif.DR.C30_trimmed_iff",
    "Verif.DR.C30_treated_unaffected",
    "Verif.DR.C30_controls_zeroed",
    "Verif.DR.C30_inactive"
   ],
   "note": ""
  },
  {
   "property": "C31",
   "status": "proved",
   "theorems": [
    "Verif.Agg.C31_simple",
    "Verif.Agg.C31_simple_max",
    "Verif.Agg.C31_dynamic",
    "Verif.Agg.C31_calendar",
    "Verif.Agg.C31_group"
   ],
   "note": ""
  },
  {
   "property": "C32",
   "status": "proved",
   "theorems": [
    "Verif.Agg.C32_simple",
    "Verif.Agg.C32_group",
    "Verif.Agg.C32_dynamic",
    "Verif.Agg.C32_calendar"
   ],
   "note": ""
  },
  {
   "property": "C33",
   "status": "proved",
   "theorems": [
    "Verif.Agg.C33_recoding_order_isomorphism"
   ],
   "note": ""
  },
  {
   "property": "C34",
   "status": "proved",
   "theorems": [
    "Verif.Agg.C34_simple_counts_steps",
    "Verif.Agg.C34_simple_consecutive",
    "Verif.Agg.C34_simple_violated",
    "Verif.Agg.C34_group_violated"
   ],
   "note": "dynamic aggregation proved; exact rule of simple/group aggregation proved, the documented one proved for consecutive periods and refuted otherwise (…_violated)"
  },
  {
   "property": "C35",
   "status": "proved",
   "theorems": [
    "Verif.Agg.C35_balanced_cells",
    "Verif.Agg.C35_constant_composition",
    "Verif.Agg.C35_gap_violated"
   ],
   "note": "proved for gap-free cells; refuted with gaps in the calendar (…_violated)"
  },
  {
   "property": "C36",
   "status": "proved",
   "theorems": [
    "Verif.Agg.C36_constant_effects",
    "Verif.Agg.C36_mean_zero",
    "Verif.Agg.C36_code_columns"
   ],
   "note": ""
  },
  {
   "property": "C37",
   "status": "proved",
   "theorems": [
    "Verif.Agg.C37_group_overall",
    "Verif.Agg.C37_dropna_all_some",
    "Verif.Agg.C37_group_missing_violated",
    "Verif.Agg.C37_dynamic_overall",
    "Verif.Agg.C37_calendar_overall",
    "Verif.Agg.C37_simple_influence",
    "Verif.Agg.C37_dynamic_influence",
    "Verif.Agg.C37_calendar_influence",
    "Verif.Agg.C37_group_influence"
   ],
   "note": "proved; for cohorts without post-treatment estimates the group claim is refuted (…_violated)"
  },
  {
   "property": "C38",
   "status": "proved",
   "theorems": [
    "Verif.Agg.C38_weights_named_weights",
    "Verif.Agg.C38_weights_ignored_violated",
    "Verif.Agg.C38_example_violated"
   ],
   "note": "proved for a weight column called 'weights'; refuted for every other name (…_violated)"
  },
  {
   "property": "C39",
   "status": "proved",
   "theorems": [
    "Verif.Boot.C39_mammen_moments"
   ],
   "note": ""
  },
  {
   "property": "C40",
   "status": "proved",
   "theorems": [
    "Verif.Boot.C40_implementations_agree",
    "Verif.Boot.C40_linear",
    "Verif.Boot.C40_zero_column",
    "Verif.Boot.C40_batching",
    "Verif.Boot.C40_count"
   ],
   "note": ""
  },
  {
   "property": "C41",
   "status": "proved",
   "theorems": [
    "Verif.Boot.C41_compiled_eq_interpreted",
    "Verif.Boot.C41_negative_labels_violated",
    "Verif.Boot.C41_entries",
    "Verif.Boot.C41_sums_add_to_total",
    "Verif.Boot.C41_relabel",
    "Verif.Boot.C41_singletons",
    "Verif.Boot.C41_ranked_labels",
    "Verif.Boot.C41_gather_agree",
    "Verif.Boot.C41_means"
   ],
   "note": "proved for non-negative integer labels and for all ranked (non-integer) labels; agreement refuted for negative integer labels (…_violated)"
  },
  {
   "property": "C42",
   "status": "proved",
   "theorems": [
    "Verif.Boot.C42_formula",
    "Verif.Boot.C42_scale",
    "Verif.Boot.C42_reported_positive",
    "Verif.Boot.C42_bands"
   ],
   "note": ""
  },
  {
   "property": "C43",
   "status": "proved",
   "theorems": [
    "Verif.Dist.C43_blocked_gram"
   ],
   "note": ""
  },
  {
   "property": "C44",
   "status": "proved",
   "theorems": [
    "Verif.Dist.C44_tree_reduce",
    "Verif.Dist.C44_any_partition_any_tree",
    "Verif.Dist.C44_driver_reductions",
    "Verif.Dist.C44_bootstrap_draw"
   ],
   "note": ""
  },
  {
   "property": "C45",
   "status": "proved",
   "theorems": [
    "Verif.Dist.C45_irls",
    "Verif.Dist.C45_reductions_admissible",
    "Verif.Dist.C45_irls_partition_invariant",
    "Verif.Dist.C45_wls"
   ],
   "note": ""
  },
  {
   "property": "C46",
   "status": "proved",
   "theorems": [
    "Verif.Dist.C46_dr",
    "Verif.Dist.C46_ipw",
    "Verif.Dist.C46_reg",
    "Verif.Dist.C46_empty",
    "Verif.Dist.C46_scores",
    "Verif.Dist.C46_scores_violated",
    "Verif.Dist.C46_rc_dr",
    "Verif.Dist.C46_rc_ipw",
    "Verif.Dist.C46_rc_reg"
   ],
   "note": ""
  },
  {
   "property": "C47",
   "status": "proved",
   "theorems": [
    "Verif.Dist.C47_chunked_eq",
    "Verif.Dist.C47_distributed_variance",
    "Verif.Dist.C47_psd"
   ],
   "note": ""
  },
  {
   "property": "C48",
   "status": "proved",
   "theorems": [
    "Verif.Dist.C48_ge_default",
    "Verif.Dist.C48_memory_bound",
    "Verif.Dist.C48_mono_rows",
    "Verif.Dist.C48_least"
   ],
   "note": ""
  },
  {
   "property": "C49",
   "status": "proved",
   "theorems": [
    "Verif.Triple.C49_dr_combination",
    "Verif.Triple.C49_ipw_combination",
    "Verif.Triple.C49_reg_combination",
    "Verif.Triple.C49_no_covariates",
    "Verif.Triple.C49_rc_no_covariates"
   ],
   "note": ""
  },
  {
   "property": "C50",
   "status": "proved",
   "theorems": [
    "Verif.Triple.C50_combination",
    "Verif.Triple.C50_untreated_units",
    "Verif.Triple.C50_mean_zero",
    "Verif.Triple.C50_rc"
   ],
   "note": ""
  },
  {
   "property": "C51",
   "status": "proved",
   "theorems": [
    "Verif.Triple.C51_aggregated_columns",
    "Verif.Triple.C51_aligned_without_gaps",
    "Verif.Triple.C51_labels",
    "Verif.Triple.C51_always_treated_cohort_violated",
    "Verif.Triple.C51_zero_column_violated"
   ],
   "note": "proved when no skipped cell precedes an estimated one, and labels proved always; refuted for every data set with an always-treated cohort (…_violated)"
  },
  {
   "property": "C52",
   "status": "proved",
   "theorems": [
    "Verif.Triple.C52_weights_sum_one",
    "Verif.Triple.C52_minimum_variance",
    "Verif.Triple.C52_equal_estimates",
    "Verif.Triple.C52_same_weights",
    "Verif.Triple.C52_subgroups"
   ],
   "note": ""
  },
  {
   "property": "C53",
   "status": "proved",
   "theorems": [
    "Verif.Triple.C53_cell_rows",
    "Verif.Triple.C53_no_treated_controls",
    "Verif.Triple.C53_pairs",
    "Verif.Triple.C53_units_used",
    "Verif.Triple.C53_cell_influence",
    "Verif.Triple.C53_single_se"
   ],
   "note": ""
  },
  {
   "property": "C54",
   "status": "proved",
   "theorems": [
    "Verif.Triple.C54_event_times",
    "Verif.Triple.C54_event_overall",
    "Verif.Triple.C54_calendar_periods",
    "Verif.Triple.C54_calendar_overall",
    "Verif.Triple.C54_simple",
    "Verif.Triple.C54_group_effects",
    "Verif.Triple.C54_group_overall",
    "Verif.Triple.C54_group_complete",
    "Verif.Triple.C54_group_dropna",
    "Verif.Triple.C54_missing_cohort_violated",
    "Verif.Triple.C54_event",
    "Verif.Triple.C54_calendar"
   ],
   "note": "every aggregate characterised; the overall group effect is proved a weighted average with dropna=True or when all cohorts have post-treatment cells, refuted otherwise (…_violated)"
  },
  {
   "property": "C55",
   "status": "proved",
   "theorems": [
    "Verif.Inter.C55_first_switch",
    "Verif.Inter.C55_horizons",
    "Verif.Inter.C55_never",
    "Verif.Inter.C55_dichotomy",
    "Verif.Inter.C55_missing_violated"
   ],
   "note": "proved for every path without missing treatments; a missing treatment hides a switch (…_violated)"
  },
  {
   "property": "C56",
   "status": "proved",
   "theorems": [
    "Verif.Inter.C56_rows_kept",
    "Verif.Inter.C56_keep_all"
   ],
   "note": ""
  },
  {
   "property": "C57",
   "status": "proved",
   "theorems": [
    "Verif.Inter.C57_calendar_gap_violated",
    "Verif.Inter.C57_weighted",
    "Verif.Inter.C57_missing",
    "Verif.Inter.C57_documented"
   ],
   "note": "proved for every frame (weights, missing outcomes, options) and in documented form for balanced panels over consecutive periods; refuted when the observed periods have a gap (…_violated)"
  },
  {
   "property": "C58",
   "status": "proved",
   "theorems": [
    "Verif.Inter.C58_difference",
    "Verif.Inter.C58_increases",
    "Verif.Inter.C58_decreases_violated"
   ],
   "note": "refuted: reported = documented + 2x contribution of decreasing units; equal when all increase, minus the documented one when all decrease"
  },
  {
   "property": "C59",
   "status": "proved",
   "theorems": [
    "Verif.Inter.C59_effects",
    "Verif.Inter.C59_placebo",
    "Verif.Inter.C59_request",
    "Verif.Inter.C59_placebo_violated"
   ],
   "note": "exact characterisation of the horizons used; for placebos the bound admits horizons without estimate (…_violated)"
  },
  {
   "property": "C60",
   "status": "proved",
   "theorems": [
    "Verif.Honest.C60_sd",
    "Verif.Honest.C60_linear",
    "Verif.Honest.C60_zero_linear",
    "Verif.Honest.C60_monotone",
    "Verif.Honest.C60_post_only"
   ],
   "note": ""
  },
  {
   "property": "C61",
   "status": "proved",
   "theorems": [
    "Verif.Honest.C61_monotonicity",
    "Verif.Honest.C61_sign",
    "Verif.Honest.C61_direction"
   ],
   "note": ""
  },
  {
   "property": "C62",
   "status": "proved",
   "theorems": [
    "Verif.Honest.C62_rm_fixed",
    "Verif.Honest.C62_union",
    "Verif.Honest.C62_rm_search",
    "Verif.Honest.C62_rm_violated",
    "Verif.Honest.C62_rmb_violated",
    "Verif.Honest.C62_sdrm_fixed",
    "Verif.Honest.C62_sdrm_search"
   ],
   "note": "matrices proved exact for every reference difference before the treatment; the search of rm misses the first difference and that of rmb/rmm uses a post-treatment one (…_violated); sdrm search proved exact"
  },
  {
   "property": "C63",
   "status": "proved",
   "theorems": [
    "Verif.Honest.C63_sd_exact",
    "Verif.Honest.C63_sdb_exact",
    "Verif.Honest.C63_sdm_exact",
    "Verif.Honest.C63_sd_contains",
    "Verif.Honest.C63_sd_nested",
    "Verif.Honest.C63_infeasible_violated",
    "Verif.Honest.C63_nesting_violated",
    "Verif.Honest.C63_rm_contains",
    "Verif.Honest.C63_sdrm_contains",
    "Verif.Honest.C63_rm_nested",
    "Verif.Honest.C63_sdrm_nested",
    "Verif.Honest.C63_rm_violated"
   ],
   "note": "sd, sdb, sdm: reported interval proved equal to the identified set; sdrm: containment and nesting proved; rm: containment proved when the largest difference is not the first, refuted otherwise; infeasible restrictions refuted (…_violated)"
  },
  {
   "property": "C64",
   "status": "proved",
   "theorems": [
    "Verif.Honest.C64_matrices",
    "Verif.Honest.C64_find_rows",
    "Verif.Honest.C64_elementwise",
    "Verif.Honest.C64_selection",
    "Verif.Honest.C64_sdrm",
    "Verif.Honest.C64_compute_bounds",
    "Verif.Honest.C64_compute_bounds_violated",
    "Verif.Honest.C64_threshold_violated",
    "Verif.Honest.C64_clip",
    "Verif.Honest.C64_clip_violated"
   ],
   "note": "agreement proved for all constructors and helpers; refuted for compute_bounds below the threshold and clip_values with lower > upper (…_violated)"
  },
  {
   "property": "C65",
   "status": "proved",
   "theorems": [
    "Verif.Infra.C65_use_restores",
    "Verif.Infra.C65_no_leak",
    "Verif.Infra.C65_invalid_name",
    "Verif.Infra.C65_active_inside",
    "Verif.Infra.C65_worker_isolated"
   ],
   "note": ""
  },
  {
   "property": "C66",
   "status": "proved",
   "theorems": [
    "Verif.Spline.C66_no_stale_caches_df",
    "Verif.Spline.C66_no_stale_caches",
    "Verif.Spline.C66_set_internal_effective",
    "Verif.Spline.C66_extended_reverts_violated",
    "Verif.Spline.C66_rejected_boundary_violated",
    "Verif.Spline.C66_rejected_sequence_violated",
    "Verif.Spline.C66_ignored_sequence_violated",
    "Verif.Spline.C66_rejected_degree_violated",
    "Verif.Spline.C66_set_order_effective"
   ],
   "note": "proved for every history without an extended knot sequence and without rejected boundary/sequence calls; each exception exhibited (…_violated)"
  },
  {
   "property": "C67",
   "status": "proved",
   "theorems": [
    "Verif.Spline.C67_requested_df",
    "Verif.Spline.C67_no_data_inside_violated",
    "Verif.Spline.C67_knot_sequence",
    "Verif.Spline.C67_x_index"
   ],
   "note": "proved for every such history and for construction from df with data inside the boundary; refuted without data inside (…_violated)"
  },
  {
   "property": "C68",
   "status": "proved",
   "theorems": [
    "Verif.Npiv.C68_no_regressor",
    "Verif.Npiv.C68_additive_tensor",
    "Verif.Npiv.C68_glp_formula",
    "Verif.Npiv.C68_glp_violated",
    "Verif.Npiv.C68_glp_single"
   ],
   "note": "additive and tensor proved for all lists; glp: closed form proved (C68_glp_formula), equality proved for one active regressor, refuted for >= 2 (…_violated)"
  },
  {
   "property": "C69",
   "status": "proved",
   "theorems": [
    "Verif.Valid.C69_composite",
    "Verif.Valid.C69_composite_errors",
    "Verif.Valid.C69_did_panel",
    "Verif.Valid.C69_nan_weights_violated",
    "Verif.Valid.C69_missing_column_violated",
    "Verif.Valid.C69_two_period",
    "Verif.Valid.C69_ddd",
    "Verif.Valid.C69_duplicates_violated",
    "Verif.Valid.C69_inter",
    "Verif.Valid.C69_missing_treatment_violated"
   ],
   "note": "exact acceptance conditions proved for all four pipelines; the four departures are …_violated"
  },
  {
   "property": "C70",
   "status": "proved",
   "theorems": [
    "Verif.Cont.C70_identity",
    "Verif.Cont.C70_cells",
    "Verif.Cont.C70_large_labels_violated",
    "Verif.Cont.C70_relabelling_violated",
    "Verif.Cont.C70_treated_base_violated",
    "Verif.Cont.C70_example_violated",
    "Verif.Cont.C70_pre_periods",
    "Verif.Cont.C70_drop_groups",
    "Verif.Cont.C70_cohorts",
    "Verif.Cont.C70_dose"
   ],
   "note": "Renumbering modelled with the whole ContDID pipeline. Positive: identity for periods 1..T and exact cell characterisation in renumbered periods. Violated in general: labels above the number of periods yield no cell; any large enough shift removes all cells; consecutive periods starting later than 1+anticipation make every post-treatment base already treated."
  },
  {
   "property": "C71",
   "status": "proved",
   "theorems": [
    "Verif.AttGt.C71_varying_unestimated_not_reported",
    "Verif.AttGt.C71_unestimated_not_reported_violated"
   ],
   "note": ""
  },
  {
   "property": "C72",
   "status": "proved",
   "theorems": [
    "Verif.DR.C72_dr_panel",
    "Verif.DR.C72_reg_panel",
    "Verif.DR.C72_ipw_panel",
    "Verif.DR.C72_imp_panel",
    "Verif.DR.C72_trad_rc_violated",
    "Verif.DR.C72_dr_rc_violated",
    "Verif.DR.C72_ht_panel",
    "Verif.DR.C72_ht_rc_gap",
    "Verif.DR.C72_ht_rc_unweighted",
    "Verif.DR.C72_imp_rc_gap",
    "Verif.DR.C72_imp_rc_balanced",
    "Verif.DR.C72_imp_local_rc_gap",
    "Verif.DR.C72_imp_local_rc_balanced",
    "Verif.DR.C72_ht_rc_violated",
    "Verif.DR.C72_imp_rc_violated",
    "Verif.DR.C72_imp_local_rc_violated",
    "Verif.DR.C72_ipw_rc",
    "Verif.DR.C72_reg_rc",
    "Verif.DR.C72_trad_rc_gap",
    "Verif.DR.C72_trad_rc_balanced",
    "Verif.DR.C72_dr_rc_gap"
   ],
   "note": "all twelve two-period estimators: seven hold outright and ipw_did_rc with equal weights; for the other cases the exact gap is proved and the claim refuted (…_violated); the improved estimators assume an intercept and no trimmed observation"
  },
  {
   "property": "C73",
   "status": "proved",
   "theorems": [
    "Verif.AttGt.C73_cell_is_did",
    "Verif.AttGt.C73_table"
   ],
   "note": ""
  },
  {
   "property": "C74",
   "status": "proved",
   "theorems": [
    "Verif.DR.C74_dr_needs_both_groups",
    "Verif.DR.C74_ipw_needs_both_groups",
    "Verif.DR.C74_reg_violated"
   ],
   "note": "proved for DR and IPW, refuted for reg_did_panel (…_violated)"
  },
  {
   "property": "C75",
   "status": "proved",
   "theorems": [
    "Verif.Agg.C75_simple",
    "Verif.Agg.C75_dynamic",
    "Verif.Agg.C75_calendar",
    "Verif.Agg.C75_group"
   ],
   "note": ""
  },
  {
   "property": "C76",
   "status": "proved",
   "theorems": [
    "Verif.Agg.C76_effects_need_cells",
    "Verif.Agg.C76_overall_need_cells",
    "Verif.Agg.C76_simple_violated"
   ],
   "note": "proved for group, dynamic, calendar; refuted for simple (…_violated)"
  },
  {
   "property": "C77",
   "status": "proved",
   "theorems": [
    "Verif.Boot.C77_draw_variance",
    "Verif.Boot.C77_matches_analytical",
    "Verif.Boot.C77_cluster_equal_sizes",
    "Verif.Boot.C77_cluster_unequal_violated"
   ],
   "note": "proved without clusters and for equal cluster sizes; refuted for unequal sizes (…_violated)"
  },
  {
   "property": "C78",
   "status": "proved",
   "theorems": [
    "Verif.Triple.C78_gmm_se_ratio",
    "Verif.Triple.C78_understated_violated"
   ],
   "note": "exact ratio proved; claim refuted (…_violated)"
  },
  {
   "property": "C79",
   "status": "proved",
   "theorems": [
    "Verif.Triple.C79_simple_gap",
    "Verif.Triple.C79_event_gap",
    "Verif.Triple.C79_calendar_gap",
    "Verif.Triple.C79_group",
    "Verif.Triple.C79_simple_violated"
   ],
   "note": "proved for the overall group effect; for simple, event-study and calendar the exact gap is proved and the claim refuted (…_violated)"
  },
  {
   "property": "C80",
   "status": "proved",
   "theorems": [
    "Verif.Triple.C80_weights_ignored_violated",
    "Verif.Triple.C80_options_forwarded"
   ],
   "note": "refuted for more than two periods (…_violated)"
  },
  {
   "property": "C81",
   "status": "proved",
   "theorems": [
    "Verif.Inter.C81_all_switch_violated",
    "Verif.Inter.C81_never_switcher_keeps",
    "Verif.Inter.C81_balanced",
    "Verif.Inter.C81_design_violated"
   ],
   "note": "refuted; exact condition for rows to survive proved"
  },
  {
   "property": "C82",
   "status": "proved",
   "theorems": [
    "Verif.Inter.C82_same_switchers",
    "Verif.Inter.C82_placebo_flag_ignored_violated",
    "Verif.Inter.C82_both_flags_violated",
    "Verif.Inter.C82_placebos_violated"
   ],
   "note": "effects with same_switchers alone proved; both flags / placebo flag refuted"
  },
  {
   "property": "C83",
   "status": "proved",
   "theorems": [
    "Verif.Inter.C83_weighted",
    "Verif.Inter.C83_documented",
    "Verif.Inter.C83_reported",
    "Verif.Inter.C83_crossing_violated"
   ],
   "note": "proved under Design Restriction 2; refuted with crossing"
  },
  {
   "property": "C84",
   "status": "proved",
   "theorems": [
    "Verif.Inter.C84_variation",
    "Verif.Inter.C84_period_zero_violated"
   ],
   "note": "proved when no unit switches in period 0; refuted otherwise"
  },
  {
   "property": "C86",
   "status": "proved",
   "theorems": [
    "Verif.Inter.C86_constant_dose",
    "Verif.Inter.C86_ramp_violated"
   ],
   "note": "proved for a common constant dose; refuted for changing doses"
  },
  {
   "property": "C87",
   "status": "proved",
   "theorems": [
    "Verif.Inter.C87_lag",
    "Verif.Inter.C87_second_copy_violated",
    "Verif.Inter.C87_replicate_violated"
   ],
   "note": "refuted, general and concrete"
  },
  {
   "property": "C88",
   "status": "proved",
   "theorems": [
    "Verif.Inter.C88_cumulates",
    "Verif.Inter.C88_detrends",
    "Verif.Inter.C88_missing_horizon_violated"
   ],
   "note": "proved when every horizon has an estimate; refuted otherwise"
  },
  {
   "property": "C89",
   "status": "proved",
   "theorems": [
    "Verif.Honest.C89_upper_is_signed_max",
    "Verif.Honest.C89_sign_violated",
    "Verif.Honest.C89_reference_violated",
    "Verif.Honest.C89_pre_matrix",
    "Verif.Honest.C89_two_periods_violated"
   ],
   "note": "exact meaning of the reported bound proved; the documented use refuted in three ways (…_violated)"
  },
  {
   "property": "C90",
   "status": "proved",
   "theorems": [
    "Verif.Spline.C90_extended_basis_columns_violated"
   ],
   "note": "proved for non-extended objects (C67_knot_sequence), refuted for every extended object of degree >= 1 (…_violated)"
  },
  {
   "property": "C91",
   "status": "proved",
   "theorems": [
    "Verif.Npiv.C91_additive_tensor",
    "Verif.Npiv.C91_glp_two",
    "Verif.Npiv.C91_glp_le",
    "Verif.Npiv.C91_glp_violated"
   ],
   "note": "proved for additive/tensor and glp with <= 2 regressors; refuted with three (…_violated)"
  },
  {
   "property": "C92",
   "status": "proved",
   "theorems": [
    "Verif.Npiv.C92_band_sieve_violated",
    "Verif.Npiv.C92_lepski_sieve"
   ],
   "note": "refuted (…_violated) for the band; the exact column shortfall of the selection step is proved for all configurations"
  },
  {
   "property": "C93",
   "status": "proved",
   "theorems": [
    "Verif.Npiv.C93_tensor_glp",
    "Verif.Npiv.C93_additive_single",
    "Verif.Npiv.C93_additive_violated"
   ],
   "note": "proved for tensor and glp and for one additive regressor; refuted for additive with >= 2 (…_violated)"
  },
  {
   "property": "C94",
   "status": "proved",
   "theorems": [
    "Verif.Npiv.C94_constant_violated",
    "Verif.Npiv.C94_top_derivative",
    "Verif.Npiv.C94_exact_rule"
   ],
   "note": "exact rule proved; highest derivative correct; refuted for every degree >= 1 (…_violated)"
  },
  {
   "property": "C95",
   "status": "proved",
   "theorems": [
    "Verif.Valid.C95_paired"
   ],
   "note": ""
  },
  {
   "property": "C96",
   "status": "proved",
   "theorems": [
    "Verif.Valid.C96_paired",
    "Verif.Valid.C96_misaligned_violated"
   ],
   "note": "proved under uniqueness of (unit, period), refuted without (…_violated)"
  },
  {
   "property": "C97",
   "status": "proved",
   "theorems": [
    "Verif.Valid.C97_subgroups",
    "Verif.Valid.C97_empty_subgroup_violated"
   ],
   "note": "proved for subgroups that occur; refuted for empty ones (…_violated)"
  },
  {
   "property": "C98",
   "status": "proved",
   "theorems": [
    "Verif.Cont.C98_comparison_untreated",
    "Verif.Cont.C98_universal_violated",
    "Verif.Cont.C98_anticipation_violated",
    "Verif.Cont.C98_changes",
    "Verif.Cont.C98_universal_pre_violated"
   ],
   "note": "First difference and subset modelled on frames. Positive theorems for the varying base; violations are general statements about arbitrary frames."
  },
  {
   "property": "C99",
   "status": "proved",
   "theorems": [
    "Verif.Cont.C99_att_overall",
    "Verif.Cont.C99_curve_average",
    "Verif.Cont.C99_exact",
    "Verif.Cont.C99_controls_mean_only",
    "Verif.Cont.C99_mean_zero"
   ],
   "note": "Spline basis abstract; lstsq = any solution of the normal equations; inverse = any matrix inverse."
  },
  {
   "property": "C100",
   "status": "proved",
   "theorems": [
    "Verif.Cont.C100_jackknife",
    "Verif.Cont.C100_scale_violated",
    "Verif.Cont.C100_variance_violated"
   ],
   "note": "Infinitesimal-jackknife derivative over the reals with refitted regression; violation for every cell with a comparison unit and a nonzero influence."
  },
  {
   "property": "C101",
   "status": "proved",
   "theorems": [
    "Verif.Cont.C101_controls_ignored_violated",
    "Verif.Cont.C101_true_influence",
    "Verif.Cont.C101_reported_violated",
    "Verif.Cont.C101_fixed_weights"
   ],
   "note": "True derivative of the overall ATT versus the reported influence; violation for every comparison unit off the comparison mean."
  },
  {
   "property": "C102",
   "status": "proved",
   "theorems": [
    "Verif.Cont.C102_overall_weights",
    "Verif.Cont.C102_sum_one"
   ],
   "note": "max_event_time left at its default (none)."
  },
  {
   "property": "C103",
   "status": "proved",
   "theorems": [
    "Verif.Cont.C103_complete",
    "Verif.Cont.C103_dilution_violated"
   ],
   "note": "Failed cells are those for which cont_did_acrt returns no extra results."
  },
  {
   "property": "C104",
   "status": "proved",
   "theorems": [
    "Verif.Cont.C104_share_influence_violated"
   ],
   "note": "True derivative proved; code's term equals treated share times it for arbitrary cohorts and weights."
  },
  {
   "property": "C105",
   "status": "proved",
   "theorems": [
    "Verif.Cont.C105_dose_weighted_violated",
    "Verif.Cont.C105_equal_doses"
   ],
   "note": "Regression branch of pte_attgt (taken whenever some dose exceeds 1); unit weights, intercept only."
  },
  {
   "property": "C106",
   "status": "proved",
   "theorems": [
    "Verif.Cont.C106_sorted",
    "Verif.Cont.C106_appearance_order_violated"
   ],
   "note": "Order of polars unique() is a parameter."
  },
  {
   "property": "C107",
   "status": "proved",
   "theorems": [
    "Verif.Cont.C107_block_sample"
   ],
   "note": "Random draw is an arbitrary list of ids."
  },
  {
   "property": "C108",
   "status": "proved",
   "theorems": [
    "Verif.Cont.C108_zero_coded",
    "Verif.Cont.C108_first_cohort_violated"
   ],
   "note": "Cohort column over WithTop Int."
  },
  {
   "property": "C109",
   "status": "proved",
   "theorems": [
    "Verif.Cont.C109_aligned",
    "Verif.Cont.C109_shift_violated",
    "Verif.Cont.C109_jackknife"
   ],
   "note": "Alignment for arbitrary lists of units; derivative of the curve over the reals. The mismatch of boundary knots between estimate and influence basis is not modelled."
  },
  {
   "property": "C110",
   "status": "proved",
   "theorems": [
    "Verif.DR.C110_std_ipw_panel",
    "Verif.DR.C110_ipw_panel",
    "Verif.DR.C110_reg_panel",
    "Verif.DR.C110_std_ipw_rc",
    "Verif.DR.C110_reg_rc"
   ],
   "note": "Fitting routines are oracles whose output depends on the weights only up to scale (true of the normal and score equations; normalEq_scale)."
  },
  {
   "property": "C111",
   "status": "proved",
   "theorems": [
    "Verif.DR.C111_imp_panel",
    "Verif.DR.C111_imp_rc",
    "Verif.DR.C111_imp_local_rc",
    "Verif.DR.C111_trimmed_violated",
    "Verif.DR.C111_trimmed_rc_violated"
   ],
   "note": "Positive part for untrimmed data; counterexamples with trimming for panel and repeated cross-sections."
  },
  {
   "property": "C112",
   "status": "proved",
   "theorems": [
    "Verif.DR.C112_dr_panel_violated",
    "Verif.DR.C112_dr_rc_violated",
    "Verif.DR.C112_trimmed_panel",
    "Verif.DR.C112_trimmed_rc"
   ],
   "note": "Concrete data with closed-form weighted least squares."
  },
  {
   "property": "C113",
   "status": "proved",
   "theorems": [
    "Verif.DR.C113_ipw_rc",
    "Verif.DR.C113_ipw_rc_violated"
   ],
   "note": "Positive part when bootstrap weights average one and nothing is trimmed; counterexample otherwise."
  },
  {
   "property": "C114",
   "status": "proved",
   "theorems": [
    "Verif.DR.C114_panel",
    "Verif.DR.C114_rc"
   ],
   "note": "Regression as solution of the normal equations of the design built by the code."
  },
  {
   "property": "C115",
   "status": "proved",
   "theorems": [
    "Verif.DR.C115_unit_shift",
    "Verif.DR.C115_unit_shift_twfe",
    "Verif.DR.C115_twfe_se_violated"
   ],
   "note": "Estimators as modelled in DR.Model; counterexample for the analytic TWFE standard error."
  },
  {
   "property": "C116",
   "status": "proved",
   "theorems": [
    "Verif.DR.C116_multiplier"
   ],
   "note": "Influence function of the unit-level difference in weighted mean changes as specification."
  },
  {
   "property": "C117",
   "status": "proved",
   "theorems": [
    "Verif.DR.C117_tile",
    "Verif.DR.C117_repeat_violated",
    "Verif.DR.C117_replicate_violated"
   ],
   "note": "Index identity for lists of any length; concrete replicate that differs."
  },
  {
   "property": "C118",
   "status": "proved",
   "theorems": [
    "Verif.DR.Tilt.C118_balance",
    "Verif.DR.Tilt.C118_means",
    "Verif.DR.Tilt.C118_dropped"
   ],
   "note": "Over the reals; convergence is a vanishing gradient; indices inside the clipping range of ±500."
  },
  {
   "property": "C119",
   "status": "proved",
   "theorems": [
    "Verif.DR.Tilt.C119_gradient",
    "Verif.DR.Tilt.C119_hessian",
    "Verif.DR.Tilt.C119_minimiser",
    "Verif.DR.Tilt.C119_unique"
   ],
   "note": "Minimiser among coefficients inside the clipping range (outside it the clipped value is not bounded below)."
  },
  {
   "property": "C120",
   "status": "proved",
   "theorems": [
    "Verif.DR.Tilt.C120_gradient",
    "Verif.DR.Tilt.C120_hessian",
    "Verif.DR.Tilt.C120_minimiser",
    "Verif.DR.Tilt.C120_unit_weights",
    "Verif.DR.Tilt.C120_weights_violated",
    "Verif.DR.Tilt.C120_scale_violated"
   ],
   "note": "Positive parts for all weights (derivatives, minimiser) and for unit weights (balance); counterexamples with weights."
  },
  {
   "property": "C121",
   "status": "proved",
   "theorems": [
    "Verif.DR.Quant.C121_between",
    "Verif.DR.Quant.C121_below",
    "Verif.DR.Quant.C121_units",
    "Verif.DR.Quant.C121_row_order",
    "Verif.DR.Quant.C121_share_violated",
    "Verif.DR.Quant.C121_row_order_violated"
   ],
   "note": "Positive parts for any order of ties given by argsort; counterexamples for the share and for tied values."
  },
  {
   "property": "C122",
   "status": "proved",
   "theorems": [
    "Verif.DR.Quant.C122_columns",
    "Verif.DR.Quant.C122_no_column",
    "Verif.DR.Quant.C122_dropped_violated"
   ],
   "note": "Pivot order of the QR decomposition is an argument; the counterexample holds for every admissible pivot order."
  },
  {
   "property": "C123",
   "status": "proved",
   "theorems": [
    "Verif.Dist.Driver.C123_cells",
    "Verif.Dist.Driver.C123_cohorts"
   ],
   "note": ""
  },
  {
   "property": "C124",
   "status": "proved",
   "theorems": [
    "Verif.Dist.Driver.C124_roles",
    "Verif.Dist.Driver.C124_anticipation_violated",
    "Verif.Dist.Driver.C124_coding_violated"
   ],
   "note": "Positive case proved; two violations proved (anticipation, coding of never-treated units)."
  },
  {
   "property": "C125",
   "status": "proved",
   "theorems": [
    "Verif.Dist.Driver.C125_columns",
    "Verif.Dist.Driver.C125_columns_violated"
   ],
   "note": "Proved when no cell fails; otherwise refuted."
  },
  {
   "property": "C126",
   "status": "proved",
   "theorems": [
    "Verif.Dist.Driver.C126_panel_rows",
    "Verif.Dist.Driver.C126_rc_rows",
    "Verif.Dist.Driver.C126_rc_rows_violated",
    "Verif.Dist.Driver.C126_rc_own_variance"
   ],
   "note": "Proved for panels; refuted for repeated cross-sections between cells."
  },
  {
   "property": "C127",
   "status": "proved",
   "theorems": [
    "Verif.Dist.Driver.C127_dask",
    "Verif.Dist.Driver.C127_partitions_violated",
    "Verif.Dist.Driver.C127_spark"
   ],
   "note": "Proved for Spark; refuted for Dask."
  },
  {
   "property": "C128",
   "status": "proved",
   "theorems": [
    "Verif.Dist.Driver.C128_first",
    "Verif.Dist.Driver.C128_notyet_violated",
    "Verif.Dist.Driver.C128_never_violated"
   ],
   "note": "Refuted in general; proved for the earliest base period."
  },
  {
   "property": "C129",
   "status": "proved",
   "theorems": [
    "Verif.Dist.Driver.C129_repeated"
   ],
   "note": ""
  },
  {
   "property": "C130",
   "status": "proved",
   "theorems": [
    "Verif.Dist.Driver.C130_joins",
    "Verif.Dist.Driver.C130_pivot_violated"
   ],
   "note": "Proved for the not-yet-treated path and balanced panels; refuted for the pivot path."
  },
  {
   "property": "C131",
   "status": "proved",
   "theorems": [
    "Verif.Boot.C131_rescale",
    "Verif.Boot.C131_rescale_up",
    "Verif.Boot.C131_sign",
    "Verif.Boot.C131_draw_order",
    "Verif.Boot.C131_unit_order",
    "Verif.Boot.C131_nonneg",
    "Verif.Boot.C131_reported",
    "Verif.Boot.C131_units_violated"
   ],
   "note": "Positive parts proved; absolute cut-off refutes unit invariance."
  },
  {
   "property": "C132",
   "status": "proved",
   "theorems": [
    "Verif.Boot.C132_coverage",
    "Verif.Boot.C132_tight",
    "Verif.Boot.C132_rescale",
    "Verif.Boot.C132_draw_order",
    "Verif.Boot.C132_monotone"
   ],
   "note": ""
  },
  {
   "property": "C133",
   "status": "proved",
   "theorems": [
    "Verif.Boot.C133_degenerate_columns_ignored",
    "Verif.Boot.C133_missing_iff",
    "Verif.Boot.C133_missing_iff_ddd",
    "Verif.Boot.C133_one_cell_spoils_violated",
    "Verif.Boot.C133_single_unit_violated"
   ],
   "note": "Characterised; one degenerate cell removes the value (refuted)."
  },
  {
   "property": "C134",
   "status": "proved",
   "theorems": [
    "Verif.Boot.C134_agg_ddd",
    "Verif.Boot.C134_narrow_band_violated"
   ],
   "note": "Proved for compute_agg_ddd; refuted for att_gt, aggte, ddd_mp."
  },
  {
   "property": "C135",
   "status": "proved",
   "theorems": [
    "Verif.Boot.C135_overall",
    "Verif.Boot.C135_one_column",
    "Verif.Boot.C135_gmm_cells_violated"
   ],
   "note": "Proved; GMM cells of ddd_mp ignore the bootstrap (refuted)."
  },
  {
   "property": "C136",
   "status": "proved",
   "theorems": [
    "Verif.Boot.C136_nonneg",
    "Verif.Boot.C136_zero_iff",
    "Verif.Boot.C136_one_cell",
    "Verif.Boot.C136_solver",
    "Verif.Boot.C136_units",
    "Verif.Boot.C136_cells",
    "Verif.Boot.C136_anticipation_violated"
   ],
   "note": "Proved; anticipation window enters the test (refuted)."
  },
  {
   "property": "C137",
   "status": "proved",
   "theorems": [
    "Verif.Inter.C137_renumber",
    "Verif.Inter.C137_low_numbers_violated",
    "Verif.Inter.C137_example_violated"
   ],
   "note": "Proved for periods numbered from 1; refuted below."
  },
  {
   "property": "C138",
   "status": "proved",
   "theorems": [
    "Verif.Inter.C138_one_cluster_violated",
    "Verif.Inter.C138_common_shock",
    "Verif.Inter.C138_common_shock_clustered"
   ],
   "note": "Proved; refuted when a cell is one cluster."
  },
  {
   "property": "C139",
   "status": "proved",
   "theorems": [
    "Verif.Inter.C139_influence",
    "Verif.Inter.C139_units"
   ],
   "note": "Proved."
  },
  {
   "property": "C140",
   "status": "proved",
   "theorems": [
    "Verif.Inter.C140_rename",
    "Verif.Inter.C140_singletons",
    "Verif.Inter.C140_documented",
    "Verif.Inter.C140_single_cluster_violated",
    "Verif.Inter.C140_missing_cluster_violated",
    "Verif.Inter.C140_unit_clusters_violated"
   ],
   "note": "Formula proved; single cluster, missing cluster and unit-level clusters refuted."
  },
  {
   "property": "C141",
   "status": "proved",
   "theorems": [
    "Verif.Inter.C141_diagonal",
    "Verif.Inter.C141_divisor_violated",
    "Verif.Inter.C141_clusters_violated",
    "Verif.Inter.C141_normalised"
   ],
   "note": "Relation proved; equality with the reported standard errors refuted."
  },
  {
   "property": "C142",
   "status": "proved",
   "theorems": [
    "Verif.Inter.C142_nonneg",
    "Verif.Inter.C142_negative_violated"
   ],
   "note": "Proved for non-negative normalisers; refuted otherwise."
  },
  {
   "property": "C143",
   "status": "proved",
   "theorems": [
    "Verif.Inter.C143_one_horizon",
    "Verif.Inter.C143_combines",
    "Verif.Inter.C143_clusters_violated",
    "Verif.Inter.C143_missing_horizon_violated",
    "Verif.Inter.C143_trends_lin_violated"
   ],
   "note": "Proved without clusters and with all horizons; clusters, missing horizons, trends_lin refuted."
  },
  {
   "property": "C144",
   "status": "proved",
   "theorems": [
    "Verif.Inter.C144_absorbs",
    "Verif.Inter.C144_explained",
    "Verif.Inter.C144_placebo_violated",
    "Verif.Inter.C144_unidentified_violated"
   ],
   "note": "Proved for effects; placebos and unidentified levels refuted."
  },
  {
   "property": "C145",
   "status": "proved",
   "theorems": [
    "Verif.Inter.C145_common_shock_violated",
    "Verif.Inter.C145_origin"
   ],
   "note": "Origins proved; common shocks refuted."
  },
  {
   "property": "C146",
   "status": "proved",
   "theorems": [
    "Verif.Inter.C146_adjustment_violated",
    "Verif.Inter.C146_constant_shift",
    "Verif.Inter.C146_covariate_in_outcome_violated"
   ],
   "note": "Refuted for every input; what is subtracted instead is proved."
  },
  {
   "property": "C147",
   "status": "proved",
   "theorems": [
    "Verif.Inter.EqualTest.C147_order",
    "Verif.Inter.EqualTest.C147_common_level",
    "Verif.Inter.EqualTest.C147_equal",
    "Verif.Inter.EqualTest.C147_units",
    "Verif.Inter.EqualTest.C147_nonneg",
    "Verif.Inter.EqualTest.C147_missing_horizon_violated",
    "Verif.Inter.EqualTest.C147_reported"
   ],
   "note": "Proved; availability with a missing horizon refuted."
  },
  {
   "property": "C148",
   "status": "proved",
   "theorems": [
    "Verif.Triple.C148_panel",
    "Verif.Triple.C148_rc_dr_violated",
    "Verif.Triple.C148_rc_gap",
    "Verif.Triple.C148_rc"
   ],
   "note": "ddd_panel: all methods; ddd_rc: reg and ipw; C148_rc_dr_violated settles the dr case, C148_rc_gap gives the exact distance"
  },
  {
   "property": "C149",
   "status": "proved",
   "theorems": [
    "Verif.Honest.C149_sound",
    "Verif.Honest.C149_sharp",
    "Verif.Honest.C149_negative_violated",
    "Verif.Honest.C149_minimax",
    "Verif.Honest.C149_reflection_violated"
   ],
   "note": "The worst-case claim is proved (sound, sharp for a non-negative weighted horizon, minimax); the code overstates the bias for a negative weighted horizon (C149_negative_violated, C149_reflection_violated). Solver contract: exact minimiser."
  },
  {
   "property": "C150",
   "status": "proved",
   "theorems": [
    "Verif.Honest.C150_binding",
    "Verif.Honest.C150_variance",
    "Verif.Honest.C150_min_bias",
    "Verif.Honest.C150_least_bias",
    "Verif.Honest.C150_range",
    "Verif.Honest.C150_tradeoff",
    "Verif.Honest.C150_one_pre"
   ],
   "note": "Exact arithmetic; convex solver by contract."
  },
  {
   "property": "C151",
   "status": "proved",
   "theorems": [
    "Verif.Honest.C151_trend",
    "Verif.Honest.C151_shift"
   ],
   "note": ""
  },
  {
   "property": "C152",
   "status": "proved",
   "theorems": [
    "Verif.Honest.C152_bracket",
    "Verif.Honest.C152_exists",
    "Verif.Honest.C152_quantile",
    "Verif.Honest.C152_sign",
    "Verif.Honest.C152_monotone",
    "Verif.Honest.C152_scale"
   ],
   "note": "norm.cdf = Mathlib Gaussian distribution function; halfnorm.ppf and brentq by contract."
  },
  {
   "property": "C153",
   "status": "proved",
   "theorems": [
    "Verif.Honest.C153_coverage",
    "Verif.Honest.C153_exact",
    "Verif.Honest.C153_feasible",
    "Verif.Honest.C153_run",
    "Verif.Honest.C153_weights",
    "Verif.Honest.C153_grid"
   ],
   "note": "Joint normality stated as normality of every linear combination."
  },
  {
   "property": "C154",
   "status": "proved",
   "theorems": [
    "Verif.Honest.C154_in_range",
    "Verif.Honest.C154_minimiser",
    "Verif.Honest.C154_terminates",
    "Verif.Honest.C154_degenerate",
    "Verif.Honest.C154_reversed_violated"
   ],
   "note": "Proved; the reversed range is a violation (C154_reversed_violated)."
  },
  {
   "property": "C155",
   "status": "proved",
   "theorems": [
    "Verif.Honest.C155_quantile",
    "Verif.Honest.C155_edges",
    "Verif.Honest.C155_point",
    "Verif.Honest.C155_mono",
    "Verif.Honest.C155_nan_violated"
   ],
   "note": "Violated for NaN truncation points (C155_nan_violated)."
  },
  {
   "property": "C156",
   "status": "proved",
   "theorems": [
    "Verif.Honest.C156_bracket",
    "Verif.Honest.C156_event",
    "Verif.Honest.C156_uncorrelated"
   ],
   "note": ""
  },
  {
   "property": "C157",
   "status": "proved",
   "theorems": [
    "Verif.Honest.C157_returns",
    "Verif.Honest.C157_size",
    "Verif.Honest.C157_lower_bound"
   ],
   "note": ""
  },
  {
   "property": "C158",
   "status": "proved",
   "theorems": [
    "Verif.Honest.C158_size"
   ],
   "note": "The first-stage size is a hypothesis: lf_cv is simulated in the code."
  },
  {
   "property": "C159",
   "status": "proved",
   "theorems": [
    "Verif.Honest.C159_size"
   ],
   "note": ""
  },
  {
   "property": "C160",
   "status": "proved",
   "theorems": [
    "Verif.Honest.C160_size_violated"
   ],
   "note": "Violated as stated: C160_size_violated; the valid case d = 0 is C159."
  },
  {
   "property": "C161",
   "status": "proved",
   "theorems": [
    "Verif.Honest.C161_hull",
    "Verif.Honest.C161_coverage",
    "Verif.Honest.C161_coverage_lf",
    "Verif.Honest.C161_sdrm"
   ],
   "note": "lf_cv as in C158; grid points exact (floating-point linspace not modelled)."
  },
  {
   "property": "C162",
   "status": "proved",
   "theorems": [
    "Verif.Honest.C162_rm_violated",
    "Verif.Honest.C162_flci_violated",
    "Verif.Honest.C162_missing_violated",
    "Verif.Honest.C162_grid_violated"
   ],
   "note": "Violated as stated: C162_*_violated."
  },
  {
   "property": "C163",
   "status": "proved",
   "theorems": [
    "Verif.Honest.C163_ends",
    "Verif.Honest.C163_exact",
    "Verif.Honest.C163_gap_violated"
   ],
   "note": "exactness for contiguous acceptance proved; the general claim is violated (C163_gap_violated)"
  },
  {
   "property": "C164",
   "status": "proved",
   "theorems": [
    "Verif.Honest.C164_raises",
    "Verif.Honest.C164_split",
    "Verif.Honest.C164_null"
   ],
   "note": ""
  },
  {
   "property": "C165",
   "status": "proved",
   "theorems": [
    "Verif.Honest.C165_inside",
    "Verif.Honest.C165_unbounded",
    "Verif.Honest.C165_returns"
   ],
   "note": ""
  },
  {
   "property": "C166",
   "status": "proved",
   "theorems": [
    "Verif.Honest.C166_size"
   ],
   "note": ""
  },
  {
   "property": "C167",
   "status": "proved",
   "theorems": [
    "Verif.Honest.C167_size"
   ],
   "note": ""
  },
  {
   "property": "C168",
   "status": "proved",
   "theorems": [
    "Verif.Honest.C168_size"
   ],
   "note": ""
  },
  {
   "property": "C169",
   "status": "proved",
   "theorems": [
    "Verif.Honest.C169_test",
    "Verif.Honest.C169_coverage"
   ],
   "note": ""
  },
  {
   "property": "C170",
   "status": "proved",
   "theorems": [
    "Verif.Honest.C170_bound",
    "Verif.Honest.C170_size_violated"
   ],
   "note": "violated: size 1-(1-alpha)^k; bound k*alpha proved"
  },
  {
   "property": "C171",
   "status": "proved",
   "theorems": [
    "Verif.Honest.C171_within",
    "Verif.Honest.C171_default_violated",
    "Verif.Honest.C171_length",
    "Verif.Honest.C171_length_ge"
   ],
   "note": "default grid claim violated (centred at zero); the rest proved"
  },
  {
   "property": "C172",
   "status": "proved",
   "theorems": [
    "Verif.Honest.C172_runs",
    "Verif.Honest.C172_values",
    "Verif.Honest.C172_gap_violated"
   ],
   "note": "positives plus C172_gap_violated"
  },
  {
   "property": "C173",
   "status": "proved",
   "theorems": [
    "Verif.Honest.C173_coverage",
    "Verif.Honest.C173_centre"
   ],
   "note": ""
  },
  {
   "property": "C174",
   "status": "proved",
   "theorems": [
    "Verif.Honest.C174_sm",
    "Verif.Honest.C174_sm_raises",
    "Verif.Honest.C174_rm",
    "Verif.Honest.C174_labels",
    "Verif.Honest.C174_dispatch",
    "Verif.Honest.C174_direction_violated"
   ],
   "note": "positives plus C174_direction_violated"
  },
  {
   "property": "C175",
   "status": "proved",
   "theorems": [
    "Verif.Honest.C175_default",
    "Verif.Honest.C175_two_periods_violated",
    "Verif.Honest.C175_negative_violated",
    "Verif.Honest.C175_grid_violated"
   ],
   "note": "positives plus the three _violated theorems"
  },
  {
   "property": "C176",
   "status": "proved",
   "theorems": [
    "Verif.Honest.C176_coverage"
   ],
   "note": ""
  },
  {
   "property": "C177",
   "status": "proved",
   "theorems": [
    "Verif.Honest.C177_sd_limits",
    "Verif.Honest.C177_sd_violated",
    "Verif.Honest.C177_sdrm_violated",
    "Verif.Honest.C177_union"
   ],
   "note": "C177_union plus the two _violated theorems"
  },
  {
   "property": "C178",
   "status": "proved",
   "theorems": [
    "Verif.Dist.C178_cell",
    "Verif.Dist.C178_ddd_panel",
    "Verif.Dist.C178_fits",
    "Verif.Dist.C178_codes",
    "Verif.Dist.C178_codes_violated",
    "Verif.Dist.C178_trimmed_violated"
   ],
   "note": "C178_cell/C178_ddd_panel/C178_fits/C178_codes plus two _violated theorems"
  },
  {
   "property": "C179",
   "status": "proved",
   "theorems": [
    "Verif.Dist.C179_cell",
    "Verif.Dist.C179_reg_violated",
    "Verif.Dist.C179_reg_stationary"
   ],
   "note": "C179_cell for dr and ipw; C179_reg_violated gives the exact gap for reg, C179_reg_stationary when it closes"
  },
  {
   "property": "C180",
   "status": "proved",
   "theorems": [
    "Verif.Dist.DddDriver.C180_prefix",
    "Verif.Dist.DddDriver.C180_multi_violated",
    "Verif.Dist.DddDriver.C180_last_period_violated"
   ],
   "note": "positives: C180_prefix; the two _violated theorems show every such call raises"
  },
  {
   "property": "C181",
   "status": "proved",
   "theorems": [
    "Verif.Dist.DddDriver.C181_spark",
    "Verif.Dist.DddDriver.C181_dask",
    "Verif.Dist.DddDriver.C181_dask_violated",
    "Verif.Dist.DddDriver.C181_never_spark",
    "Verif.Dist.DddDriver.C181_never_dask_violated"
   ],
   "note": "C181_spark/C181_dask/C181_never_spark plus _violated for Dask"
  },
  {
   "property": "C182",
   "status": "proved",
   "theorems": [
    "Verif.Dist.DddDriver.C182_controls",
    "Verif.Dist.DddDriver.C182_never",
    "Verif.Dist.DddDriver.C182_infinity_violated"
   ],
   "note": "C182_controls, C182_never; C182_infinity_violated"
  },
  {
   "property": "C183",
   "status": "proved",
   "theorems": [
    "Verif.Dist.DddDriver.C183_multi",
    "Verif.Dist.DddDriver.C183_extra_violated"
   ],
   "note": "C183_multi; C183_extra_violated gives the exact factor"
  },
  {
   "property": "C184",
   "status": "proved",
   "theorems": [
    "Verif.Inter.C184_estimate",
    "Verif.Inter.C184_equal",
    "Verif.Inter.C184_dilution_violated",
    "Verif.Inter.C184_zero_violated",
    "Verif.Inter.C184_count",
    "Verif.Inter.C184_example_violated"
   ],
   "note": "Positive part plus _violated theorems for switchers without controls."
  },
  {
   "property": "C185",
   "status": "proved",
   "theorems": [
    "Verif.Inter.C185_delta",
    "Verif.Inter.C185_normalised",
    "Verif.Inter.C185_missing_violated"
   ],
   "note": "Equal without missing doses; violated with one."
  },
  {
   "property": "C186",
   "status": "proved",
   "theorems": [
    "Verif.Inter.C186_influence",
    "Verif.Inter.C186_standard_error",
    "Verif.Inter.C186_dilution_violated"
   ],
   "note": "Equal with a control for every candidate; dilution factor otherwise."
  },
  {
   "property": "C187",
   "status": "proved",
   "theorems": [
    "Verif.Inter.C187_control_clusters",
    "Verif.Inter.C187_switcher_clusters",
    "Verif.Inter.C187_local_count_violated",
    "Verif.Inter.C187_trends_violated"
   ],
   "note": "Distributed counts proved; single-machine count and trend strata shown to differ."
  },
  {
   "property": "C188",
   "status": "proved",
   "theorems": [
    "Verif.Inter.C188_vcov",
    "Verif.Inter.C188_equal",
    "Verif.Inter.C188_dropped_units_violated"
   ],
   "note": "Formula proved; difference with dropped units shown."
  },
  {
   "property": "C189",
   "status": "proved",
   "theorems": [
    "Verif.Inter.C189_subset",
    "Verif.Inter.C189_colocated",
    "Verif.Inter.C189_no_local_control_violated",
    "Verif.Inter.C189_no_local_variation_violated",
    "Verif.Inter.C189_spread_violated",
    "Verif.Inter.C189_no_variation_violated",
    "Verif.Inter.C189_window",
    "Verif.Inter.C189_placement_violated"
   ],
   "note": "Subset and colocated case proved; placement dependence shown."
  },
  {
   "property": "C190",
   "status": "proved",
   "theorems": [
    "Verif.Inter.C190_effects",
    "Verif.Inter.C190_placebo",
    "Verif.Inter.C190_equal",
    "Verif.Inter.C190_le",
    "Verif.Inter.C190_unbalanced_violated"
   ],
   "note": "Exact rule proved; difference for unbalanced panels shown."
  },
  {
   "property": "C191",
   "status": "proved",
   "theorems": [
    "Verif.Inter.C191_gram",
    "Verif.Inter.C191_adjustment",
    "Verif.Inter.C191_equal",
    "Verif.Inter.C191_equal_unadjusted",
    "Verif.Inter.C191_few_rows_violated",
    "Verif.Inter.C191_one_unit_violated",
    "Verif.Inter.C191_example_violated"
   ],
   "note": "Equal under stated conditions; two _violated gaps."
  },
  {
   "property": "C192",
   "status": "proved",
   "theorems": [
    "Verif.Inter.C192_estimate"
   ],
   "note": ""
  },
  {
   "property": "C193",
   "status": "proved",
   "theorems": [
    "Verif.Inter.C193_part2",
    "Verif.Inter.C193_difference_violated",
    "Verif.Inter.C193_influence",
    "Verif.Inter.C193_standard_error_violated"
   ],
   "note": "Exact difference proved; standard errors shown to differ."
  },
  {
   "property": "C194",
   "status": "proved",
   "theorems": [
    "Verif.Inter.C194_sample",
    "Verif.Inter.C194_unit",
    "Verif.Inter.C194_distributed",
    "Verif.Inter.C194_horizons"
   ],
   "note": ""
  },
  {
   "property": "C195",
   "status": "proved",
   "theorems": [
    "Verif.Inter.C195_order",
    "Verif.Inter.C195_shift",
    "Verif.Inter.C195_recovers",
    "Verif.Inter.C195_common_shock",
    "Verif.Inter.C195_shock_violated"
   ],
   "note": "settled: positives C195_shift, C195_recovers, C195_common_shock, C195_order; the two-direction part is refuted by C195_shock_violated"
  },
  {
   "property": "C196",
   "status": "proved",
   "theorems": [
    "Verif.Inter.C196_trends",
    "Verif.Inter.C196_trends_violated",
    "Verif.Inter.C196_late_violated",
    "Verif.Inter.C196_weight_violated"
   ],
   "note": "settled: refuted by C196_trends_violated, C196_weight_violated, C196_late_violated; C196_trends gives the exact value"
  },
  {
   "property": "C197",
   "status": "proved",
   "theorems": [
    "Verif.Cont.C197_agree",
    "Verif.Cont.C197_infer",
    "Verif.Cont.C197_infer_agree",
    "Verif.Cont.C197_local_dose",
    "Verif.Cont.C197_zero_dose_comparison",
    "Verif.Cont.C197_zero_dose_violated",
    "Verif.Cont.C197_last_period_violated"
   ],
   "note": "settled: C197_agree, C197_infer, C197_infer_agree, C197_local_dose; the unconditional claim is refuted by C197_zero_dose_violated and C197_last_period_violated"
  },
  {
   "property": "C198",
   "status": "proved",
   "theorems": [
    "Verif.Cont.C198_any_order",
    "Verif.Cont.C198_stale_violated",
    "Verif.Cont.C198_placement"
   ],
   "note": "settled: C198_any_order, C198_placement; independence of earlier runs refuted by C198_stale_violated"
  },
  {
   "property": "C199",
   "status": "proved",
   "theorems": [
    "Verif.Cont.C199_level_violated",
    "Verif.Cont.C199_fixed_effect_violated",
    "Verif.Cont.C199_agree_iff"
   ],
   "note": "settled: refuted by C199_level_violated and C199_fixed_effect_violated; C199_agree_iff is the exact condition"
  },
  {
   "property": "C200",
   "status": "proved",
   "theorems": [
    "Verif.Npiv.Sel.C200_longest_run",
    "Verif.Npiv.Sel.C200_candidates",
    "Verif.Npiv.Sel.C200_none_feasible_violated",
    "Verif.Npiv.Sel.C200_weak_instruments_violated",
    "Verif.Npiv.Sel.C200_singular_violated"
   ],
   "note": "positive part under feasibility of the smallest candidate; violations as theorems"
  },
  {
   "property": "C201",
   "status": "proved",
   "theorems": [
    "Verif.Npiv.Sel.C201_rule",
    "Verif.Npiv.Sel.C201_not_largest",
    "Verif.Npiv.Sel.C201_monotone",
    "Verif.Npiv.Sel.C201_single_violated"
   ],
   "note": ""
  },
  {
   "property": "C202",
   "status": "proved",
   "theorems": [
    "Verif.Npiv.Sel.C202_failed_pair_violated",
    "Verif.Npiv.Sel.C202_infinite_band"
   ],
   "note": ""
  },
  {
   "property": "C203",
   "status": "proved",
   "theorems": [
    "Verif.Npiv.Sel.C203_variance",
    "Verif.Npiv.Sel.C203_bootstrap",
    "Verif.Npiv.Sel.C203_units"
   ],
   "note": ""
  },
  {
   "property": "C204",
   "status": "proved",
   "theorems": [
    "Verif.Npiv.Sel.C204_centred",
    "Verif.Npiv.Sel.C204_calibration",
    "Verif.Npiv.Sel.C204_default_violated",
    "Verif.Npiv.Sel.C204_units",
    "Verif.Npiv.Sel.C204_units_violated",
    "Verif.Npiv.Sel.C204_adaptive_wider"
   ],
   "note": "violations as theorems"
  },
  {
   "property": "C205",
   "status": "proved",
   "theorems": [
    "Verif.Npiv.Tsls.C205_normal_equations",
    "Verif.Npiv.Tsls.C205_exact",
    "Verif.Npiv.Tsls.C205_regression",
    "Verif.Npiv.Tsls.C205_instrument_basis",
    "Verif.Npiv.Tsls.C205_sieve_basis"
   ],
   "note": ""
  },
  {
   "property": "C206",
   "status": "proved",
   "theorems": [
    "Verif.Npiv.Sel.C206_bounds",
    "Verif.Npiv.Sel.C206_zero_violated"
   ],
   "note": ""
  },
  {
   "property": "C207",
   "status": "proved",
   "theorems": [
    "Verif.Npiv.Sel.C207_instruments",
    "Verif.Npiv.Sel.C207_regression_violated"
   ],
   "note": ""
  },
  {
   "property": "C208",
   "status": "proved",
   "theorems": [
    "Verif.Triple.Entry.C208_groups_counted",
    "Verif.Triple.Entry.C208_coding_matters_iff",
    "Verif.Triple.Entry.C208_same_route_many_periods",
    "Verif.Triple.Entry.C208_inf_coding_violated"
   ],
   "note": "settled: exact characterisation and a violation"
  },
  {
   "property": "C209",
   "status": "proved",
   "theorems": [
    "Verif.Triple.Entry.C209_cluster_two_period_violated",
    "Verif.Triple.Entry.C209_cluster_multi",
    "Verif.Triple.Entry.C209_trim_panel",
    "Verif.Triple.Entry.C209_two_period_options"
   ],
   "note": "settled: violation for cluster, positives for the rest"
  },
  {
   "property": "C210",
   "status": "proved",
   "theorems": [
    "Verif.Triple.Entry.C210_unbalanced_error_violated",
    "Verif.Triple.Entry.C210_option_without_effect",
    "Verif.Triple.Entry.C210_two_periods"
   ],
   "note": "settled: violation and the exact effect of the option"
  },
  {
   "property": "C211",
   "status": "proved",
   "theorems": [
    "Verif.Triple.Entry.C211_rc_codes_right_iff",
    "Verif.Triple.Entry.C211_panel_codes",
    "Verif.Triple.Entry.C211_timing_violated"
   ],
   "note": "settled: exact characterisation and a violation"
  },
  {
   "property": "C212",
   "status": "proved",
   "theorems": [
    "Verif.Triple.C212_rows_handed_over",
    "Verif.Triple.C212_cell_influence",
    "Verif.Triple.C212_single_se",
    "Verif.Triple.C212_ids_without_effect",
    "Verif.Triple.C212_aligned_without_gaps",
    "Verif.Triple.C212_zero_column_violated"
   ],
   "note": "settled: positives and the alignment violation"
  },
  {
   "property": "C213",
   "status": "proved",
   "theorems": [
    "Verif.Triple.C213_combined_se",
    "Verif.Triple.C213_understated_violated"
   ],
   "note": "settled: the exact factor and the violation"
  },
  {
   "property": "C214",
   "status": "proved",
   "theorems": [
    "Verif.Triple.C214_rc_agrees",
    "Verif.Triple.C214_panel_agrees"
   ],
   "note": "proved for both data types"
  },
  {
   "property": "C215",
   "status": "proved",
   "theorems": [
    "Verif.Boot.C215_half_width",
    "Verif.Boot.C215_coverage",
    "Verif.Boot.C215_units",
    "Verif.Boot.C215_order",
    "Verif.Boot.C215_degenerate_violated"
   ],
   "note": "settled: positives and the degenerate violation"
  },
  {
   "property": "C216",
   "status": "proved",
   "theorems": [
    "Verif.DR.Entry.C216_drdid_options",
    "Verif.DR.Entry.C216_ipwdid_options",
    "Verif.DR.Entry.C216_ordid_options",
    "Verif.DR.Entry.C216_rejected"
   ],
   "note": ""
  },
  {
   "property": "C217",
   "status": "proved",
   "theorems": [
    "Verif.DR.Entry.C217_imp_and_or",
    "Verif.DR.Entry.C217_trad_and_ipw",
    "Verif.DR.Entry.C217_ht"
   ],
   "note": ""
  },
  {
   "property": "C218",
   "status": "proved",
   "theorems": [
    "Verif.DR.Entry.C218_row_order"
   ],
   "note": ""
  },
  {
   "property": "C219",
   "status": "proved",
   "theorems": [
    "Verif.DR.Entry.C219_no_covariates"
   ],
   "note": ""
  },
  {
   "property": "C220",
   "status": "proved",
   "theorems": [
    "Verif.DR.Entry.C220_formulas",
    "Verif.DR.Entry.C220_default_violated"
   ],
   "note": "general formulas proved for all four methods; the documented (3.4) is refuted for the default method"
  },
  {
   "property": "C221",
   "status": "proved",
   "theorems": [
    "Verif.DR.Entry.C221_both_arms",
    "Verif.DR.Entry.C221_ordid_violated"
   ],
   "note": "proved for drdid trad and ipwdid std_ipw, refuted for ordid"
  },
  {
   "property": "C222",
   "status": "proved",
   "theorems": [
    "Verif.DR.Entry.C222_pre_covariates_ignored",
    "Verif.DR.Entry.C222_pretreatment_violated"
   ],
   "note": "pre-period covariates proved irrelevant for all frames; adjustment for pre-treatment covariates refuted"
  },
  {
   "property": "C223",
   "status": "proved",
   "theorems": [
    "Verif.Honest.C223_sdrm_interval_violated",
    "Verif.Honest.C223_rm_exact",
    "Verif.Honest.C223_rm_raises",
    "Verif.Honest.C223_rm_first_violated",
    "Verif.Honest.C223_sdrm_set",
    "Verif.Honest.C223_sdrm_point_violated"
   ],
   "note": "Positive parts proved; the two violated clauses are theorems with concrete instances."
  },
  {
   "property": "C224",
   "status": "proved",
   "theorems": [
    "Verif.Cont.C224_cell",
    "Verif.Cont.C224_between_violated"
   ],
   "note": "C224_cell proves the positive part; C224_between_violated the exception"
  },
  {
   "property": "C225",
   "status": "proved",
   "theorems": [
    "Verif.Cont.C225_labels",
    "Verif.Cont.C225_labels_violated",
    "Verif.Cont.C225_shares_violated"
   ],
   "note": "C225_labels proves the positive part; C225_labels_violated and C225_shares_violated the exception"
  },
  {
   "property": "C226",
   "status": "proved",
   "theorems": [
    "Verif.Cont.C226_event_study",
    "Verif.Cont.C226_overall",
    "Verif.Cont.C226_overall_violated",
    "Verif.Cont.C226_gap_violated",
    "Verif.Cont.C226_weights_violated"
   ],
   "note": "C226_event_study and C226_overall (closed forms) are the positive part; three violated theorems"
  },
  {
   "property": "C227",
   "status": "proved",
   "theorems": [
    "Verif.Cont.C227_weights",
    "Verif.Cont.C227_group"
   ],
   "note": ""
  },
  {
   "property": "C228",
   "status": "proved",
   "theorems": [
    "Verif.Cont.C228_event",
    "Verif.Cont.C228_overall_violated",
    "Verif.Cont.C228_slope_violated",
    "Verif.Cont.C228_first_cohort_violated",
    "Verif.Cont.C228_missing",
    "Verif.Cont.C228_quantile_violated",
    "Verif.Cont.C228_one_replicate"
   ],
   "note": "C228_event, C228_missing positive; four violated theorems"
  },
  {
   "property": "C229",
   "status": "proved",
   "theorems": [
    "Verif.Cont.C229_quantile",
    "Verif.Cont.C229_effect",
    "Verif.Cont.C229_exact",
    "Verif.Cont.C229_range_violated"
   ],
   "note": "C229_quantile, C229_exact positive; C229_range_violated"
  },
  {
   "property": "C230",
   "status": "proved",
   "theorems": [
    "Verif.Cont.C230_quantile",
    "Verif.Cont.C230_negative_violated",
    "Verif.Cont.C230_clip_violated"
   ],
   "note": "C230_quantile positive; two violated theorems"
  },
  {
   "property": "C231",
   "status": "proved",
   "theorems": [
    "Verif.Boot.C231_partition",
    "Verif.Boot.C231_one_variable",
    "Verif.Boot.C231_accepted",
    "Verif.Boot.C231_two_variables_violated",
    "Verif.Boot.C231_collision_violated",
    "Verif.Boot.C231_aggte_violated"
   ],
   "note": "Positive part proved; the documented [idname, v] specification, underscore collisions and aggte are settled by the _violated theorems."
  },
  {
   "property": "C232",
   "status": "proved",
   "theorems": [
    "Verif.Honest.C232_rm_coverage",
    "Verif.Honest.C232_sdrm_coverage",
    "Verif.Honest.C232_short_pre"
   ],
   "note": "Exact LP solver with basic solutions and exact truncation search are hypotheses (ToolsOk) met by constructed exact solvers (Honest/ArpExist.lean, via a proof of Farkas lemma); regularity of the moments (RegularLp) and contiguity of acceptance as in C165-C169. For first differences the maximal pre-difference may not be only the first (C61)."
  },
  {
   "property": "C233",
   "status": "proved",
   "theorems": [
    "Verif.Cont.Cck.C233_two_by_two",
    "Verif.Cont.Cck.C233_parallel_shift",
    "Verif.Cont.Cck.C233_exact",
    "Verif.Cont.Cck.C233_untreated_ignored_violated",
    "Verif.Cont.Cck.C233_acrt_untreated"
   ],
   "note": "Positive parts proved; the clause about standard errors of ATT(d) is refuted by C233_untreated_ignored_violated."
  },
  {
   "property": "C234",
   "status": "proved",
   "theorems": [
    "Verif.Cont.Cck.C234_influence",
    "Verif.Cont.Cck.C234_critical_value",
    "Verif.Cont.Cck.C234_level_violated"
   ],
   "note": "Positive parts proved; the level of the uniform bands is refuted by C234_level_violated."
  },
  {
   "property": "C235",
   "status": "proved",
   "theorems": [
    "Verif.Report.C235_star",
    "Verif.Report.C235_rounding",
    "Verif.Report.C235_explicit_level",
    "Verif.Report.C235_inherited_level_violated",
    "Verif.Report.C235_label",
    "Verif.Report.C235_label_violated"
   ],
   "note": "Positive parts proved; the two violated clauses are refuted by C235_inherited_level_violated and C235_label_violated."
  },
  {
   "property": "C236",
   "status": "proved",
   "theorems": [
    "Verif.Report.C236_events",
    "Verif.Report.C236_agrees_with_print",
    "Verif.Report.C236_cells",
    "Verif.Report.C236_original",
    "Verif.Report.C236_original_violated",
    "Verif.Report.C236_inter"
   ],
   "note": "Positive parts proved; the single-value clause is refuted by C236_original_violated."
  },
  {
   "property": "C237",
   "status": "proved",
   "theorems": [
    "Verif.Honest.Dual.C237_search",
    "Verif.Honest.Dual.C237_distance",
    "Verif.Honest.Dual.C237_not_optimal",
    "Verif.Honest.Dual.C237_tolerance_violated"
   ],
   "note": "claimed tolerance settled by C237_tolerance_violated, the rest proved"
  },
  {
   "property": "C238",
   "status": "proved",
   "theorems": [
    "Verif.Honest.C238_inside_flci",
    "Verif.Honest.C238_flci_coverage_violated"
   ],
   "note": "coverage settled by C238_flci_coverage_violated"
  },
  {
   "property": "C239",
   "status": "proved",
   "theorems": [
    "Verif.Sim.C239_scalable",
    "Verif.Sim.C239_did",
    "Verif.Sim.C239_mult",
    "Verif.Sim.C239_two"
   ],
   "note": ""
  },
  {
   "property": "C240",
   "status": "proved",
   "theorems": [
    "Verif.Sim.C240_propensity",
    "Verif.Sim.C240_outcome"
   ],
   "note": ""
  },
  {
   "property": "C241",
   "status": "proved",
   "theorems": [
    "Verif.Sim.C241_scalable",
    "Verif.Sim.C241_mult",
    "Verif.Sim.C241_two",
    "Verif.Sim.C241_simple"
   ],
   "note": ""
  },
  {
   "property": "C242",
   "status": "proved",
   "theorems": [
    "Verif.Sim.C242_did_violated"
   ],
   "note": "settled by C242_did_violated"
  },
  {
   "property": "C243",
   "status": "proved",
   "theorems": [
    "Verif.Sim.C243_oracle",
    "Verif.Sim.C243_es0",
    "Verif.Sim.C243_proportion_violated"
   ],
   "note": "proportions settled by C243_proportion_violated"
  },
  {
   "property": "C244",
   "status": "proved",
   "theorems": [
    "Verif.Sim.C244_groups",
    "Verif.Sim.C244_given",
    "Verif.Sim.C244_effect",
    "Verif.Sim.C244_balanced",
    "Verif.Sim.C244_num_groups_violated",
    "Verif.Sim.C244_dose_violated"
   ],
   "note": "num_groups and D settled by the _violated theorems"
  },
  {
   "property": "C245",
   "status": "proved",
   "theorems": [
    "Verif.Honest.Factor.C245_from_first",
    "Verif.Honest.Factor.C245_from_last",
    "Verif.Honest.Factor.C245_refused",
    "Verif.Honest.Factor.C245_number",
    "Verif.Honest.Factor.C245_regex",
    "Verif.Honest.Factor.C245_list",
    "Verif.Honest.Factor.C245_dict",
    "Verif.Honest.Factor.C245_text",
    "Verif.Honest.Factor.C245_names_cut_violated"
   ],
   "note": "Violated part: numpy stores names cut at the width of the text array."
  },
  {
   "property": "C246",
   "status": "proved",
   "theorems": [
    "Verif.Honest.Factor.C246_dummies",
    "Verif.Honest.Factor.C246_row_sum",
    "Verif.Honest.Factor.C246_row_sum_all",
    "Verif.Honest.Factor.C246_unknown_ref_violated",
    "Verif.Honest.Factor.C246_numeric",
    "Verif.Honest.Factor.C246_factors",
    "Verif.Honest.Factor.C246_names",
    "Verif.Honest.Factor.C246_pair_names_violated"
   ],
   "note": "Violated parts: unknown reference ignored; pair names ambiguous."
  },
  {
   "property": "C247",
   "status": "proved",
   "theorems": [
    "Verif.Report.C247_ddd",
    "Verif.Report.C247_did",
    "Verif.Report.C247_boundary_violated",
    "Verif.Report.C247_bootstrap_violated",
    "Verif.Report.C247_no_se_violated"
   ],
   "note": "proved for analytical standard errors; the bootstrap and boundary cases are settled as violated"
  },
  {
   "property": "C248",
   "status": "proved",
   "theorems": [
    "Verif.Report.C248_coverage"
   ],
   "note": ""
  },
  {
   "property": "C249",
   "status": "proved",
   "theorems": [
    "Verif.Ident.C249_cell",
    "Verif.Ident.C249_treated",
    "Verif.Ident.C249_before"
   ],
   "note": ""
  },
  {
   "property": "C250",
   "status": "proved",
   "theorems": [
    "Verif.Ident.C250_simple",
    "Verif.Ident.C250_event",
    "Verif.Ident.C250_calendar",
    "Verif.Ident.C250_group"
   ],
   "note": ""
  },
  {
   "property": "C251",
   "status": "proved",
   "theorems": [
    "Verif.Ident.C251_reg",
    "Verif.Ident.C251_dr",
    "Verif.Ident.C251_imp"
   ],
   "note": ""
  },
  {
   "property": "C252",
   "status": "proved",
   "theorems": [
    "Verif.Sim.C252_first",
    "Verif.Sim.C252_second",
    "Verif.Sim.C252_third",
    "Verif.Sim.C252_fourth"
   ],
   "note": ""
  },
  {
   "property": "C253",
   "status": "proved",
   "theorems": [
    "Verif.Ident.C253_ddd"
   ],
   "note": ""
  },
  {
   "property": "C254",
   "status": "proved",
   "theorems": [
    "Verif.Ident.C254_formula",
    "Verif.Ident.C254_bias"
   ],
   "note": ""
  },
  {
   "property": "C255",
   "status": "proved",
   "theorems": [
    "Verif.Ident.C255_effect",
    "Verif.Ident.C255_placebo",
    "Verif.Ident.C255_normalised",
    "Verif.Ident.C255_slope",
    "Verif.Ident.C255_slope_violated"
   ],
   "note": "effects and placebos proved; the sign of the normalised effect for decreases is settled by C255_slope_violated"
  },
  {
   "property": "C256",
   "status": "proved",
   "theorems": [
    "Verif.Ident.C256_trad",
    "Verif.Ident.C256_efficient",
    "Verif.Ident.C256_reg",
    "Verif.Ident.C256_trad_stable",
    "Verif.Ident.C256_reg_stable",
    "Verif.Ident.C256_composition_violated"
   ],
   "note": "drdid_rc proved; the two composition-sensitive estimators are settled by C256_composition_violated and proved under stable covariate means"
  },
  {
   "property": "C257",
   "status": "proved",
   "theorems": [
    "Verif.Ident.C257_ddd_rc"
   ],
   "note": "est_method dr; reg and ipw depend on the composition of the subgroups over time (compare C256)"
  },
  {
   "property": "C258",
   "status": "proved",
   "theorems": [
    "Verif.Asym.C258_limit",
    "Verif.Asym.C258_coverage"
   ],
   "note": "The solver is the inverse of the Gram matrix (any least-squares routine returns the same coefficients at full rank). Boundary: exact real arithmetic; the condition-number check (cond > 1e15) is not modelled, it can only raise an error."
  },
  {
   "property": "C259",
   "status": "proved",
   "theorems": [
    "Verif.Asym.C259_limit",
    "Verif.Asym.C259_coverage",
    "Verif.Asym.C259_tolerance_violated"
   ],
   "note": "C259_limit and C259_coverage prove the claim for the standard error before the tolerance; C259_tolerance_violated proves the NaN replacement eventually applies in every such population"
  },
  {
   "property": "C260",
   "status": "proved",
   "theorems": [
    "Verif.Asym.C260_simple",
    "Verif.Asym.C260_event",
    "Verif.Asym.C260_period",
    "Verif.Asym.C260_cohort"
   ],
   "note": "standard error before the NaN tolerance of C259; cells that are not estimated are absent from the table (dropna=True); exact real arithmetic"
  },
  {
   "property": "C261",
   "status": "proved",
   "theorems": [
    "Verif.Asym.C261_dynamic",
    "Verif.Asym.C261_calendar",
    "Verif.Asym.C261_group"
   ],
   "note": "standard error before the NaN tolerance of C259; exact real arithmetic"
  },
  {
   "property": "C262",
   "status": "proved",
   "theorems": [
    "Verif.Asym.C262_limit",
    "Verif.Asym.C262_coverage"
   ],
   "note": "est_method=reg, analytic standard errors; an intercept among the covariates is assumed (as the formula interface adds)."
  },
  {
   "property": "C263",
   "status": "proved",
   "theorems": [
    "Verif.DR.NoCov.C263_reg",
    "Verif.DR.NoCov.C263_dr",
    "Verif.DR.NoCov.C263_ipw",
    "Verif.DR.NoCov.C263_imp",
    "Verif.DR.NoCov.C263_ht",
    "Verif.DR.NoCov.C263_ipw_rc",
    "Verif.DR.NoCov.C263_reg_rc",
    "Verif.DR.NoCov.C263_trad_rc",
    "Verif.DR.NoCov.C263_imp_rc",
    "Verif.DR.NoCov.C263_dr_rc",
    "Verif.DR.NoCov.C263_imp_local_rc"
   ],
   "note": "Horvitz-Thompson weighting for repeated cross-sections is not included (its score enters the estimate)."
  },
  {
   "property": "C264",
   "status": "proved",
   "theorems": [
    "Verif.Asym.C264_influence",
    "Verif.Asym.C264_cell",
    "Verif.Asym.C264_simple",
    "Verif.Asym.C264_event",
    "Verif.Asym.C264_period",
    "Verif.Asym.C264_cohort",
    "Verif.Asym.C264_dynamic",
    "Verif.Asym.C264_calendar",
    "Verif.Asym.C264_group",
    "Verif.Asym.C264_two_period_limit",
    "Verif.Asym.C264_two_period_coverage"
   ],
   "note": "The logit on a constant is modelled by its exact solution, the treated share. Standard errors without the NaN tolerance of att_gt (C259)."
  },
  {
   "property": "C265",
   "status": "proved",
   "theorems": [
    "Verif.Report.C265_names",
    "Verif.Report.C265_normalised",
    "Verif.Report.C265_weights_violated",
    "Verif.Report.C265_counts_violated"
   ],
   "note": "The naming of the outcome-regression and doubly robust estimators is truthful (positive); the weighting line of ipwdid and the covariate count are violated and shown by _violated theorems."
  },
  {
   "property": "C266",
   "status": "proved",
   "theorems": [
    "Verif.Report.Triple.C266_truthful",
    "Verif.Report.Triple.C266_labels_violated",
    "Verif.Report.Triple.C266_groups",
    "Verif.Report.Triple.C266_infinite_violated"
   ],
   "note": "Truthful for the values and groups printed; the variable names, SE label and simultaneous-band label are violated and shown by _violated theorems; the overflow on an inf-coded never-treated group likewise."
  },
  {
   "property": "C267",
   "status": "proved",
   "theorems": [
    "Verif.Inter.BootReport.C267_horizons",
    "Verif.Inter.BootReport.C267_average_violated",
    "Verif.Inter.BootReport.C267_two_errors_violated",
    "Verif.Inter.BootReport.C267_printed",
    "Verif.Inter.BootReport.C267_printed_violated"
   ],
   "note": "Horizon standard errors and intervals proved; average total effect, tests and printed description are violated and shown by _violated theorems."
  },
  {
   "property": "C268",
   "status": "proved",
   "theorems": [
    "Verif.Boot.Seed.C268_reproducible",
    "Verif.Boot.Seed.C268_same_column",
    "Verif.Boot.Seed.C268_seed_ignored_violated",
    "Verif.Boot.Seed.C268_eventstudy_violated",
    "Verif.Boot.Seed.C268_cluster_order_violated"
   ],
   "note": "Reproducibility proved for att_gt, aggte, dose responses and event-study cells; the remaining parts are violated and shown by _violated theorems."
  },
  {
   "property": "C269",
   "status": "proved",
   "theorems": [
    "Verif.Asym.C269_limit",
    "Verif.Asym.C269_coverage"
   ],
   "note": "scores of an intercept-only fit are the treated share; statistical large-sample statement about exact arithmetic"
  },
  {
   "property": "C270",
   "status": "proved",
   "theorems": [
    "Verif.AttGt.C270_cross_section_aligned",
    "Verif.AttGt.C270_unbalanced_units",
    "Verif.AttGt.C270_unbalanced_aligned_iff",
    "Verif.AttGt.C270_row_numbers_aligned_iff",
    "Verif.AttGt.C270_unbalanced_alignment_violated",
    "Verif.AttGt.C270_aggregate_variance_violated"
   ],
   "note": "positive for distinct ids without allow_unbalanced_panel, exact characterisation with it, violation witnessed"
  },
  {
   "property": "C271",
   "status": "proved",
   "theorems": [
    "Verif.AttGt.C271_reported_variance",
    "Verif.AttGt.C271_right_iff",
    "Verif.AttGt.C271_clustered_by_id",
    "Verif.AttGt.C271_recurring_ids_violated",
    "Verif.AttGt.C271_universal_raises"
   ],
   "note": "exact factor, exact condition, universal-base error and clustered variance proved; violation witnessed"
  },
  {
   "property": "C272",
   "status": "proved",
   "theorems": [
    "Verif.AttGt.C272_unbalanced_never_estimates_violated",
    "Verif.AttGt.C272_unbalanced_raises_violated",
    "Verif.AttGt.C272_balanced_unaffected"
   ],
   "note": "balanced case proved equal; for unbalanced panels proved that no estimate is ever returned"
  },
  {
   "property": "C273",
   "status": "proved",
   "theorems": [
    "Verif.Inter.Balance.C273_filled_panel",
    "Verif.Inter.Balance.C273_weights",
    "Verif.Inter.Balance.C273_cluster_of_unit",
    "Verif.Inter.Balance.C273_late_entrants_violated",
    "Verif.Inter.Balance.C273_all_seen_first",
    "Verif.Inter.Balance.C273_drop_missing_preswitch",
    "Verif.Inter.Balance.C273_dropped_iff",
    "Verif.Inter.Balance.C273_units_survive"
   ],
   "note": "filled grid, option and balanced case proved; for late entrants proved that the clustered standard error ignores them"
  },
  {
   "property": "C274",
   "status": "proved",
   "theorems": [
    "Verif.Prep.C274_size_is_unit_count",
    "Verif.Prep.C274_accepts_iff",
    "Verif.Prep.C274_antitone_in_covariates",
    "Verif.Prep.C274_no_never_treated_violated",
    "Verif.Prep.C274_rows_not_units_violated"
   ],
   "note": "The statement carries violations: an empty never-treated group passes; panel=False counts rows. Settled by positive theorems for balanced panels and two _violated theorems."
  },
  {
   "property": "C275",
   "status": "proved",
   "theorems": [
    "Verif.Cont.C275_group_effect",
    "Verif.Cont.C275_group_influence",
    "Verif.Cont.C275_group_overall",
    "Verif.Cont.C275_balanced_composition",
    "Verif.Cont.C275_balanced_events",
    "Verif.Cont.C275_balanced_effect",
    "Verif.Cont.C275_pre_composition_violated",
    "Verif.Cont.C275_band_contains_pointwise"
   ],
   "note": "Composition is constant for event times 0..b; before treatment it changes (_violated)."
  },
  {
   "property": "C276",
   "status": "proved",
   "theorems": [
    "Verif.Dist.DddCells.C276_computed_cells",
    "Verif.Dist.DddCells.C276_aligned",
    "Verif.Dist.DddCells.C276_shifted_violated",
    "Verif.Dist.DddCells.C276_two_periods",
    "Verif.Dist.DddCells.C276_early_violated",
    "Verif.Dist.DddCells.C276_late_violated",
    "Verif.Dist.DddCells.C276_two_period_routes_violated"
   ],
   "note": "positive parts proved; violated for always-treated cohorts and two-period designs outside t1<b<=t2"
  },
  {
   "property": "C277",
   "status": "proved",
   "theorems": [
    "Verif.Dist.Options.C277_local_iff",
    "Verif.Dist.Options.C277_documented",
    "Verif.Dist.Options.C277_base_violated",
    "Verif.Dist.Options.C277_zero_violated",
    "Verif.Dist.Options.C277_names_violated",
    "Verif.Dist.Options.C277_level_violated"
   ],
   "note": "single-machine checks and documented values proved; violated on distributed frames"
  },
  {
   "property": "C278",
   "status": "proved",
   "theorems": [
    "Verif.Asym.C278_methods_agree",
    "Verif.Asym.C278_influence",
    "Verif.Asym.C278_limit",
    "Verif.Asym.C278_coverage"
   ],
   "note": "The logit on a constant returns the treated share (DR.intercept_logit); clipping at 1-1e-6 and trimming are modelled."
  },
  {
   "property": "C279",
   "status": "proved",
   "theorems": [
    "Verif.Dist.C279_split",
    "Verif.Dist.C279_variance",
    "Verif.Dist.C279_cluster_violated",
    "Verif.Dist.C279_att_gt",
    "Verif.Dist.C279_att_gt_band_violated"
   ],
   "note": "Standard errors a GMM cell brings along are modelled for ddd, taken as absent for att_gt; generators are arbitrary functions of worker, row count and draw."
  },
  {
   "property": "C280",
   "status": "proved",
   "theorems": [
    "Verif.Asym.C280_sample",
    "Verif.Asym.C280_methods_agree",
    "Verif.Asym.C280_limit",
    "Verif.Asym.C280_coverage"
   ],
   "note": "The logit without covariates is modelled by its solution, the treated share of the comparison."
  },
  {
   "property": "C281",
   "status": "proved",
   "theorems": [
    "Verif.Asym.C281_sample",
    "Verif.Asym.C281_cell"
   ],
   "note": "cells of panel=False data with unique ids (the influence function has one entry per row); allow_unbalanced_panel is a separate case; the means of the arms need not be balanced over periods"
  },
  {
   "property": "C282",
   "status": "proved",
   "theorems": [
    "Verif.Asym.C282_simple",
    "Verif.Asym.C282_event",
    "Verif.Asym.C282_period",
    "Verif.Asym.C282_cohort",
    "Verif.Asym.C282_dynamic",
    "Verif.Asym.C282_calendar",
    "Verif.Asym.C282_group"
   ],
   "note": "as C281; the aggregation weights are the weights column named \"weights\" (or none): other names are ignored by aggte, see C38"
  },
  {
   "property": "C283",
   "status": "proved",
   "theorems": [
    "Verif.Asym.C283_sample",
    "Verif.Asym.C283_cell"
   ],
   "note": "Never-treated comparison (one control cohort). The not-yet-treated GMM combination is C78/C208 in samples only."
  },
  {
   "property": "C284",
   "status": "proved",
   "theorems": [
    "Verif.Asym.C284_simple",
    "Verif.Asym.C284_event",
    "Verif.Asym.C284_period",
    "Verif.Asym.C284_variance",
    "Verif.Asym.C284_coverage_violated"
   ],
   "note": "Settled by C284_coverage_violated; limits and variance decomposition hold in general. Analytic standard errors without bootstrap; cells of the never-treated comparison."
  },
  {
   "property": "C285",
   "status": "proved",
   "theorems": [
    "Verif.Asym.C285_cohort",
    "Verif.Asym.C285_group"
   ],
   "note": "Cohort effects and the overall group effect of agg_ddd on the tables of C283."
  },
  {
   "property": "C286",
   "status": "proved",
   "theorems": [
    "Verif.Asym.C286_event",
    "Verif.Asym.C286_calendar",
    "Verif.Asym.C286_variance",
    "Verif.Asym.C286_coverage_violated"
   ],
   "note": "Overall event-study and calendar effects of agg_ddd on the tables of C283; C286_coverage_violated settles the violated part, the other theorems the rest."
  },
  {
   "property": "C287",
   "status": "proved",
   "theorems": [
    "Verif.Asym.C287_gap",
    "Verif.Asym.C287_equal_fractions",
    "Verif.Asym.C287_treated_violated"
   ],
   "note": "Event-time effects of agg_ddd on the tables of C283; C287_treated_violated settles the violated part, the other theorems the rest."
  }
 ]
}