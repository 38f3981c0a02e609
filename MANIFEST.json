{
 "claims": [
  {
   "property": "C01",
   "status": "proved",
   "theorems": [
    "Mot.Props.C01_partition",
    "Mot.Props.C01_status_exclusive"
   ],
   "note": ""
  },
  {
   "property": "C02",
   "status": "proved",
   "theorems": [
    "Mot.Props.C02_refines_table",
    "Mot.Props.C02_track_types"
   ],
   "note": ""
  },
  {
   "property": "C03",
   "status": "proved",
   "theorems": [
    "Mot.Props.C03_counter_range",
    "Mot.Props.C03_no_wrap",
    "Mot.Props.C03_since_added"
   ],
   "note": ""
  },
  {
   "property": "C04",
   "status": "proved",
   "theorems": [
    "Mot.Props.C04_removal"
   ],
   "note": ""
  },
  {
   "property": "C05",
   "status": "proved",
   "theorems": [
    "Mot.Props.C05_promotion_timing"
   ],
   "note": ""
  },
  {
   "property": "C06",
   "status": "proved",
   "theorems": [
    "Mot.Props.C06_no_demotion"
   ],
   "note": ""
  },
  {
   "property": "C07",
   "status": "proved",
   "theorems": [
    "Mot.Props.C07_eventually_removed",
    "Mot.Props.C07_forgetting"
   ],
   "note": ""
  },
  {
   "property": "C08",
   "status": "proved",
   "theorems": [
    "Mot.Props.C08_add"
   ],
   "note": ""
  },
  {
   "property": "C09",
   "status": "proved",
   "theorems": [
    "Mot.Props.C09_set_promotion"
   ],
   "note": ""
  },
  {
   "property": "C10",
   "status": "proved",
   "theorems": [
    "Mot.Props.C10_set_removal"
   ],
   "note": ""
  },
  {
   "property": "C11",
   "status": "proved",
   "theorems": [
    "Mot.Props.C11_misconfigured"
   ],
   "note": ""
  },
  {
   "property": "C12",
   "status": "proved",
   "theorems": [
    "Mot.Props.C12_update_track_plain",
    "Mot.Props.C12_update_track_variant"
   ],
   "note": ""
  },
  {
   "property": "C13",
   "status": "partial",
   "theorems": [
    "Mot.Props.C13_failed_update_partial",
    "Mot.Props.C13_left_behind",
    "Mot.Props.C13_not_atomic"
   ],
   "note": "false as stated (C13_not_atomic gives the counterexample); C13_failed_update_partial proves what holds; C13_left_behind gives the exact state a failing update leaves"
  },
  {
   "property": "C14",
   "status": "proved",
   "theorems": [
    "Mot.Props.C14_order_unobservable"
   ],
   "note": ""
  },
  {
   "property": "C15",
   "status": "proved",
   "theorems": [
    "Mot.Props.C15_empty_list_counts",
    "Mot.Props.C15_keys_only"
   ],
   "note": ""
  },
  {
   "property": "C16",
   "status": "proved",
   "theorems": [
    "Mot.Props.C16_entry_iff",
    "Mot.Props.C16_last_wins",
    "Mot.Props.C16_value_of_distinct"
   ],
   "note": ""
  },
  {
   "property": "C17",
   "status": "proved",
   "theorems": [
    "Mot.Props.C17_euclidean_some_iff",
    "Mot.Props.C17_mahalanobis_some_iff",
    "Mot.Props.C17_no_cross_model_entry"
   ],
   "note": ""
  },
  {
   "property": "C18",
   "status": "proved",
   "theorems": [
    "Mot.Props.C18_prune_comp",
    "Mot.Props.C18_prune_idempotent",
    "Mot.Props.C18_prune_iff",
    "Mot.Props.C18_prune_stateful"
   ],
   "note": ""
  },
  {
   "property": "C19",
   "status": "proved",
   "theorems": [
    "Mot.Props.C19_one_to_one"
   ],
   "note": ""
  },
  {
   "property": "C20",
   "status": "proved",
   "theorems": [
    "Mot.Props.C20_all_detections",
    "Mot.Props.C20_all_tracks",
    "Mot.Props.C20_card"
   ],
   "note": ""
  },
  {
   "property": "C21",
   "status": "proved",
   "theorems": [
    "Mot.Props.C21_near_optimal",
    "Mot.Props.C21_not_exactly_optimal"
   ],
   "note": "near-optimality proved with IEEE rounding; C21_not_exactly_optimal proves exact minimality false"
  },
  {
   "property": "C22",
   "status": "partial",
   "theorems": [
    "Mot.Props.C22_gated_iff",
    "Mot.Props.C22_gated_pair_associated",
    "Mot.Props.C22_gated_pair_forced",
    "Mot.Props.C22_most_scored_pairs_partial",
    "Mot.Props.C22_no_gated_pair_if_avoidable_partial"
   ],
   "note": "false as stated: C22_gated_pair_associated (every permutation solver) and C22_gated_pair_forced; the _partial theorems prove maximal use of scored pairs, C22_gated_iff says exactly when a gated pair is used"
  },
  {
   "property": "C23",
   "status": "partial",
   "theorems": [
    "Mot.Props.C23_all_zero_is_ub",
    "Mot.Props.C23_empty_is_ub",
    "Mot.Props.C23_negative_limit",
    "Mot.Props.C23_nonfinite_is_ub",
    "Mot.Props.C23_returns_partial",
    "Mot.Props.C23_ub_iff",
    "Mot.Props.C23_ub_iff_all"
   ],
   "note": "false as stated: C23_empty_is_ub, C23_all_zero_is_ub, C23_nonfinite_is_ub; C23_ub_iff characterises UB exactly on finite non-negative scores, C23_ub_iff_all on all score maps including negative scores"
  },
  {
   "property": "C24",
   "status": "proved",
   "theorems": [
    "Mot.Props.C24_costs",
    "Mot.Props.C24_double_rounding",
    "Mot.Props.C24_float_rounding",
    "Mot.Props.C24_gating_erases_scores",
    "Mot.Props.C24_not_nearest_after_gating"
   ],
   "note": ""
  },
  {
   "property": "C25",
   "status": "proved",
   "theorems": [
    "Mot.Props.C25_has_association"
   ],
   "note": ""
  },
  {
   "property": "C26",
   "status": "proved",
   "theorems": [
    "Mot.Props.C26_score_matrix"
   ],
   "note": ""
  },
  {
   "property": "C27",
   "status": "proved",
   "theorems": [
    "Mot.Props.C27_association_map",
    "Mot.Props.C27_get_element_at"
   ],
   "note": ""
  },
  {
   "property": "C28",
   "status": "proved",
   "theorems": [
    "Mot.Props.C28_make_square"
   ],
   "note": ""
  },
  {
   "property": "C29",
   "status": "proved",
   "theorems": [
    "Mot.Props.C29_exactly_the_pairs",
    "Mot.Props.C29_failure",
    "Mot.Props.C29_mem",
    "Mot.Props.C29_one_per_association"
   ],
   "note": ""
  },
  {
   "property": "C30",
   "status": "proved",
   "theorems": [
    "Mot.Props.C30_identity_and_time",
    "Mot.Props.C30_models_must_agree",
    "Mot.Props.C30_total"
   ],
   "note": ""
  },
  {
   "property": "C31",
   "status": "proved",
   "theorems": [
    "Mot.Props.C31_weight"
   ],
   "note": ""
  },
  {
   "property": "C32",
   "status": "proved",
   "theorems": [
    "Mot.Props.C32_valid_covariance"
   ],
   "note": ""
  },
  {
   "property": "C33",
   "status": "proved",
   "theorems": [
    "Mot.Props.C33_consistent",
    "Mot.Props.C33_fused_objects"
   ],
   "note": ""
  },
  {
   "property": "C34",
   "status": "proved",
   "theorems": [
    "Mot.Props.C34_idempotent_ctra",
    "Mot.Props.C34_idempotent_ctrv",
    "Mot.Props.C34_symmetric"
   ],
   "note": "idempotent up to less than 2e-12 rad in the heading: the code uses 3.14159265359 for pi"
  },
  {
   "property": "C35",
   "status": "partial",
   "theorems": [
    "Mot.Props.C35_between_ctra_partial",
    "Mot.Props.C35_between_ctrv_partial",
    "Mot.Props.C35_false",
    "Mot.Props.C35_iff",
    "Mot.Props.C35_midpoint_partial",
    "Mot.Props.C35_opposite",
    "Mot.Props.C35_opposite_ctra"
   ],
   "note": "false as stated (C35_false, C35_opposite); the _partial theorems prove it for headings on the same side of the cut and uncorrelated heading; C35_iff says exactly when the result is the mean direction"
  },
  {
   "property": "C36",
   "status": "proved",
   "theorems": [
    "Mot.Props.C36_identity",
    "Mot.Props.C36_predict",
    "Mot.Props.C36_predict_variant",
    "Mot.Props.C36_propagate",
    "Mot.Props.C36_propagate_failure",
    "Mot.Props.C36_ukf_visitor",
    "Mot.Props.C36_variant"
   ],
   "note": ""
  },
  {
   "property": "C37",
   "status": "partial",
   "theorems": [
    "Mot.Props.C37_false",
    "Mot.Props.C37_honoured_iff",
    "Mot.Props.C37_honoured_iff_ctra",
    "Mot.Props.C37_honoured_partial",
    "Mot.Props.C37_swapped"
   ],
   "note": "false as stated (C37_false, for every correct Cholesky factorisation); C37_swapped says which parameters are used, C37_honoured_partial covers beta = kappa; C37_honoured_iff and C37_honoured_iff_ctra say exactly for which parameters the request is honoured"
  },
  {
   "property": "C38",
   "status": "proved",
   "theorems": [
    "Mot.Props.C38_defined_iff",
    "Mot.Props.C38_weights"
   ],
   "note": ""
  },
  {
   "property": "C39",
   "status": "proved",
   "theorems": [
    "Mot.Props.C39_ctra",
    "Mot.Props.C39_ctrv",
    "Mot.Props.C39_points",
    "Mot.Props.C39_reproduces"
   ],
   "note": ""
  },
  {
   "property": "C40",
   "status": "proved",
   "theorems": [
    "Mot.Props.C40_affine",
    "Mot.Props.C40_predict",
    "Mot.Props.C40_weighted"
   ],
   "note": ""
  },
  {
   "property": "C41",
   "status": "partial",
   "theorems": [
    "Mot.Props.C41_ctra_partial",
    "Mot.Props.C41_ctrv_partial",
    "Mot.Props.C41_false",
    "Mot.Props.C41_heading_iff_ctra_partial",
    "Mot.Props.C41_heading_iff_ctrv_partial",
    "Mot.Props.C41_noop_high_partial",
    "Mot.Props.C41_noop_partial",
    "Mot.Props.C41_others_ctra_partial",
    "Mot.Props.C41_others_ctrv_partial"
   ],
   "note": "false as stated (C41_false); proved: for headings whose sigma points stay on one side of the cut nothing changes (C41_noop_partial); everything but the heading row never changes (C41_others_*); the heading stays exactly if no sigma point lies beyond the cut (C41_heading_iff_*)"
  },
  {
   "property": "C42",
   "status": "proved",
   "theorems": [
    "Mot.Props.C42_default",
    "Mot.Props.C42_defined_iff",
    "Mot.Props.C42_negative_variance",
    "Mot.Props.C42_right_order",
    "Mot.Props.C42_valid_covariance"
   ],
   "note": ""
  },
  {
   "property": "C43",
   "status": "proved",
   "theorems": [
    "Mot.Props.C43_ctra_zero_step",
    "Mot.Props.C43_ctrv_zero_step"
   ],
   "note": ""
  },
  {
   "property": "C44",
   "status": "proved",
   "theorems": [
    "Mot.Props.C44_ctrv_flow",
    "Mot.Props.C44_ctrv_reversible",
    "Mot.Props.C44_tiny_rate_counterexample"
   ],
   "note": ""
  },
  {
   "property": "C45",
   "status": "proved",
   "theorems": [
    "Mot.Props.C45_ctrv_ode"
   ],
   "note": ""
  },
  {
   "property": "C46",
   "status": "proved",
   "theorems": [
    "Mot.Props.C46_ctra_flow",
    "Mot.Props.C46_ctra_reversible"
   ],
   "note": ""
  },
  {
   "property": "C47",
   "status": "proved",
   "theorems": [
    "Mot.Props.C47_ctra_ode"
   ],
   "note": ""
  },
  {
   "property": "C48",
   "status": "proved",
   "theorems": [
    "Mot.Props.C48_ctra_ctrv"
   ],
   "note": ""
  },
  {
   "property": "C49",
   "status": "proved",
   "theorems": [
    "Mot.Props.C49_ctra_noise",
    "Mot.Props.C49_ctra_zero_noise",
    "Mot.Props.C49_ctrv_noise",
    "Mot.Props.C49_ctrv_zero_noise"
   ],
   "note": ""
  },
  {
   "property": "C50",
   "status": "proved",
   "theorems": [
    "Mot.Props.C50_displacement",
    "Mot.Props.C50_displacement_ctra"
   ],
   "note": ""
  },
  {
   "property": "C51",
   "status": "proved",
   "theorems": [
    "Mot.Props.C51_eq_iff",
    "Mot.Props.C51_get_angle",
    "Mot.Props.C51_set_angle"
   ],
   "note": ""
  },
  {
   "property": "C52",
   "status": "proved",
   "theorems": [
    "Mot.Props.C52_add_sub",
    "Mot.Props.C52_get_angle",
    "Mot.Props.C52_group",
    "Mot.Props.C52_valid"
   ],
   "note": ""
  },
  {
   "property": "C53",
   "status": "proved",
   "theorems": [
    "Mot.Props.C53_divide_scale",
    "Mot.Props.C53_double_halve",
    "Mot.Props.C53_int_scale",
    "Mot.Props.C53_scale",
    "Mot.Props.C53_scale_not_additive"
   ],
   "note": ""
  },
  {
   "property": "C54",
   "status": "proved",
   "theorems": [
    "Mot.Props.C54_ctra_add_sub",
    "Mot.Props.C54_ctra_vector",
    "Mot.Props.C54_ctrv_add_sub",
    "Mot.Props.C54_ctrv_vector",
    "Mot.Props.C54_scale",
    "Mot.Props.C54_vector_entries"
   ],
   "note": ""
  },
  {
   "property": "C55",
   "status": "proved",
   "theorems": [
    "Mot.Props.C55_ctra_metric",
    "Mot.Props.C55_ctra_zero_iff",
    "Mot.Props.C55_ctrv_metric",
    "Mot.Props.C55_ctrv_zero_iff"
   ],
   "note": ""
  },
  {
   "property": "C56",
   "status": "partial",
   "theorems": [
    "Mot.Props.C56_heading_iff",
    "Mot.Props.C56_heading_partial",
    "Mot.Props.C56_heading_wraps"
   ],
   "note": "false as stated (C56_heading_wraps); C56_heading_partial proves what holds; C56_heading_iff says exactly when the score is the circular distance"
  },
  {
   "property": "C57",
   "status": "proved",
   "theorems": [
    "Mot.Props.C57_ctra_metric",
    "Mot.Props.C57_ctra_stat_distance",
    "Mot.Props.C57_ctrv_metric",
    "Mot.Props.C57_ctrv_stat_distance",
    "Mot.Props.C57_identity",
    "Mot.Props.C57_singular"
   ],
   "note": ""
  },
  {
   "property": "C58",
   "status": "proved",
   "theorems": [
    "Mot.Props.C58_any_uuids",
    "Mot.Props.C58_exactly_one",
    "Mot.Props.C58_partition"
   ],
   "note": ""
  },
  {
   "property": "C59",
   "status": "proved",
   "theorems": [
    "Mot.Props.C59_extremes",
    "Mot.Props.C59_origins"
   ],
   "note": ""
  },
  {
   "property": "C60",
   "status": "partial",
   "theorems": [
    "Mot.Props.C60_all_histories",
    "Mot.Props.C60_centroid_partial",
    "Mot.Props.C60_clear_keeps_sum",
    "Mot.Props.C60_clusters",
    "Mot.Props.C60_detection_types",
    "Mot.Props.C60_duplicate_counts_twice",
    "Mot.Props.C60_members",
    "Mot.Props.C60_yaw_opposite"
   ],
   "note": "false as stated (C60_clear_keeps_sum, C60_duplicate_counts_twice, C60_yaw_opposite); C60_centroid_partial proves what holds; C60_all_histories gives the centroid after every history, including clear and duplicates"
  },
  {
   "property": "C61",
   "status": "proved",
   "theorems": [
    "Mot.Props.C61_add_remove",
    "Mot.Props.C61_errors",
    "Mot.Props.C61_remove"
   ],
   "note": ""
  },
  {
   "property": "C62",
   "status": "partial",
   "theorems": [
    "Mot.Props.C62_iff",
    "Mot.Props.C62_pair_partial",
    "Mot.Props.C62_radius_partial",
    "Mot.Props.C62_threshold_is_squared"
   ],
   "note": "false as stated (C62_threshold_is_squared); C62_pair_partial and C62_radius_partial prove what holds; C62_iff says exactly for which thresholds the documented meaning holds"
  },
  {
   "property": "C63",
   "status": "proved",
   "theorems": [
    "Mot.Props.C63_entries",
    "Mot.Props.C63_rejects",
    "Mot.Props.C63_row_major",
    "Mot.Props.C63_short_is_ub"
   ],
   "note": "short arrays are not rejected: C63_short_is_ub"
  },
  {
   "property": "C64",
   "status": "proved",
   "theorems": [
    "Mot.Props.C64_ctra",
    "Mot.Props.C64_ctrv",
    "Mot.Props.C64_never_loaded",
    "Mot.Props.C64_throws",
    "Mot.Props.C64_ub",
    "Mot.Props.C64_unsupported",
    "Mot.Props.C64_variant"
   ],
   "note": ""
  },
  {
   "property": "C65",
   "status": "partial",
   "theorems": [
    "Mot.Props.C65_false",
    "Mot.Props.C65_readable_ctra_partial",
    "Mot.Props.C65_readable_iff",
    "Mot.Props.C65_readable_partial",
    "Mot.Props.C65_written_is_null"
   ],
   "note": "false as stated for every value (C65_false); C65_readable_iff says exactly which objects are the reading of some document"
  },
  {
   "property": "C66",
   "status": "proved",
   "theorems": [
    "Mot.Props.C66_matrix",
    "Mot.Props.C66_mono_odd_idem",
    "Mot.Props.C66_nearest",
    "Mot.Props.C66_noise",
    "Mot.Props.C66_state",
    "Mot.Props.C66_state_idempotent_iff",
    "Mot.Props.C66_state_not_idempotent"
   ],
   "note": "all proved; rounding a state twice differs from rounding it once exactly if the yaw rounds up past 2 pi (C66_state_idempotent_iff)"
  },
  {
   "property": "C67",
   "status": "proved",
   "theorems": [
    "Mot.Props.C67_container_order",
    "Mot.Props.C67_hash",
    "Mot.Props.C67_operators",
    "Mot.Props.C67_strict_total_order"
   ],
   "note": ""
  },
  {
   "property": "C68",
   "status": "partial",
   "theorems": [
    "Mot.Props.C68_false",
    "Mot.Props.C68_not_unbalanced_partial",
    "Mot.Props.C68_same_model_iff",
    "Mot.Props.C68_unbalanced_is_ub"
   ],
   "note": "false as stated (C68_false, C68_unbalanced_is_ub); C68_same_model_iff gives the exact condition for optimal solvers and scores up to 1e31"
  },
  {
   "property": "C69",
   "status": "proved",
   "theorems": [
    "Mot.Props.C69_cycle",
    "Mot.Props.C69_never_throws",
    "Mot.Props.C69_reachable"
   ],
   "note": "the cycle is the documented composition of the public functions (the repository has no main program); fusion in exact real arithmetic"
  },
  {
   "property": "C70",
   "status": "partial",
   "theorems": [
    "Mot.Props.C70_iff",
    "Mot.Props.C70_row_differences_fit_partial",
    "Mot.Props.C70_row_differences_overflow"
   ],
   "note": "false as stated for more tracks than detections (C70_row_differences_overflow); proved otherwise; what dlib does with the matrix: C116-C118"
  },
  {
   "property": "C71",
   "status": "partial",
   "theorems": [
    "Mot.Props.C71_chain_partial",
    "Mot.Props.C71_eq_partial",
    "Mot.Props.C71_linked",
    "Mot.Props.C71_not_transitive",
    "Mot.Props.C71_tolerance_partial"
   ],
   "note": "false as stated (C71_not_transitive); C71_eq_partial and C71_tolerance_partial prove reflexivity, symmetry and the tolerance; C71_chain_partial bounds the drift along k comparisons, C71_linked says which states chains of comparisons link"
  },
  {
   "property": "C72",
   "status": "partial",
   "theorems": [
    "Mot.Props.C72_diameter",
    "Mot.Props.C72_documented_iff",
    "Mot.Props.C72_order_iff",
    "Mot.Props.C72_order_matters",
    "Mot.Props.C72_separated_partial"
   ],
   "note": "false as stated (C72_order_matters); C72_documented_iff and C72_order_iff: it holds in every order exactly if being within the threshold is transitive among the detections"
  },
  {
   "property": "C73",
   "status": "proved",
   "theorems": [
    "Mot.Props.C73_every_detection_once"
   ],
   "note": "as C69"
  },
  {
   "property": "C74",
   "status": "proved",
   "theorems": [
    "Mot.Props.C74_getters",
    "Mot.Props.C74_make_track",
    "Mot.Props.C74_setters",
    "Mot.Props.C74_variant_copy",
    "Mot.Props.C74_variant_estimate",
    "Mot.Props.C74_variant_setters"
   ],
   "note": ""
  },
  {
   "property": "C75",
   "status": "proved",
   "theorems": [
    "Mot.Props.C75_ctra_add_sub",
    "Mot.Props.C75_ctra_superposition",
    "Mot.Props.C75_ctra_vector",
    "Mot.Props.C75_ctrv_add_sub",
    "Mot.Props.C75_ctrv_superposition",
    "Mot.Props.C75_ctrv_vector",
    "Mot.Props.C75_eq",
    "Mot.Props.C75_round"
   ],
   "note": ""
  },
  {
   "property": "C76",
   "status": "proved",
   "theorems": [
    "Mot.Props.C76_associate",
    "Mot.Props.C76_cluster",
    "Mot.Props.C76_cycle",
    "Mot.Props.C76_fuse",
    "Mot.Props.C76_next",
    "Mot.Props.C76_period",
    "Mot.Props.C76_predict",
    "Mot.Props.C76_scores"
   ],
   "note": ""
  },
  {
   "property": "C77",
   "status": "partial",
   "theorems": [
    "Mot.Props.C77_circle_excess",
    "Mot.Props.C77_euclid_iff",
    "Mot.Props.C77_fuse_false",
    "Mot.Props.C77_fuse_partial",
    "Mot.Props.C77_mirror_euclid_iff",
    "Mot.Props.C77_mirror_fuse_false",
    "Mot.Props.C77_mirror_fuse_partial",
    "Mot.Props.C77_mirror_mahalanobis_false",
    "Mot.Props.C77_mirror_mahalanobis_partial",
    "Mot.Props.C77_mirror_predict_false",
    "Mot.Props.C77_mirror_predict_partial",
    "Mot.Props.C77_mirror_score_false",
    "Mot.Props.C77_next",
    "Mot.Props.C77_nextNoisy",
    "Mot.Props.C77_score_false",
    "Mot.Props.C77_scores_partial",
    "Mot.Props.C77_ukf_false"
   ],
   "note": "false as stated (C77_score_false, C77_fuse_false, C77_ukf_false); C77_euclid_iff says exactly when the Euclidean score is unchanged; C77_next and C77_nextNoisy hold without restriction, the _partial theorems for headings that do not cross the cuts; mirroring: C77_mirror_euclid_iff exact, fusion and prediction up to 4.1e-13 rad of heading (C77_mirror_fuse_partial, C77_mirror_predict_partial), never exactly (C77_mirror_fuse_false, C77_mirror_predict_false)"
  },
  {
   "property": "C78",
   "status": "partial",
   "theorems": [
    "Mot.Props.C78_euclid_false",
    "Mot.Props.C78_euclid_iff",
    "Mot.Props.C78_euclid_partial",
    "Mot.Props.C78_fuse",
    "Mot.Props.C78_mahalanobis",
    "Mot.Props.C78_next",
    "Mot.Props.C78_nextNoisy",
    "Mot.Props.C78_period",
    "Mot.Props.C78_predict"
   ],
   "note": "false as stated for the Euclidean score only (C78_euclid_false); everything else is proved, the Euclidean score exactly for equal headings (C78_euclid_iff)"
  },
  {
   "property": "C79",
   "status": "proved",
   "theorems": [
    "Mot.Props.C79_associate",
    "Mot.Props.C79_cycle",
    "Mot.Props.C79_duplicates",
    "Mot.Props.C79_fuse",
    "Mot.Props.C79_start"
   ],
   "note": ""
  },
  {
   "property": "C80",
   "status": "proved",
   "theorems": [
    "Mot.Props.C80_noninterference"
   ],
   "note": ""
  },
  {
   "property": "C81",
   "status": "proved",
   "theorems": [
    "Mot.Props.C81_cycles",
    "Mot.Props.C81_every_other_update",
    "Mot.Props.C81_windows"
   ],
   "note": ""
  },
  {
   "property": "C82",
   "status": "proved",
   "theorems": [
    "Mot.Props.C82_between",
    "Mot.Props.C82_dominated",
    "Mot.Props.C82_not_overconfident",
    "Mot.Props.C82_same_state",
    "Mot.Props.C82_same_vector"
   ],
   "note": ""
  },
  {
   "property": "C83",
   "status": "proved",
   "theorems": [
    "Mot.Props.C83_bounds",
    "Mot.Props.C83_ctra_monotone",
    "Mot.Props.C83_ctrv_monotone"
   ],
   "note": ""
  },
  {
   "property": "C84",
   "status": "proved",
   "theorems": [
    "Mot.Props.C84_ctra",
    "Mot.Props.C84_ctrv",
    "Mot.Props.C84_heading_ctra",
    "Mot.Props.C84_heading_ctrv",
    "Mot.Props.C84_heading_high_ctra",
    "Mot.Props.C84_heading_high_ctrv"
   ],
   "note": ""
  },
  {
   "property": "C85",
   "status": "proved",
   "theorems": [
    "Mot.Props.C85_accuracy",
    "Mot.Props.C85_indistinguishable",
    "Mot.Props.C85_monotone",
    "Mot.Props.C85_nan",
    "Mot.Props.C85_nan_iff",
    "Mot.Props.C85_range",
    "Mot.Props.C85_same_float",
    "Mot.Props.C85_self_overflow",
    "Mot.Props.C85_sqrt_rounding",
    "Mot.Props.C85_sqrt_special",
    "Mot.Props.C85_symmetric",
    "Mot.Props.C85_zero"
   ],
   "note": ""
  },
  {
   "property": "C86",
   "status": "proved",
   "theorems": [
    "Mot.Props.C86_defined",
    "Mot.Props.C86_nan_pose",
    "Mot.Props.C86_nonfinite_pose",
    "Mot.Props.C86_quarter_metre",
    "Mot.Props.C86_ub_iff"
   ],
   "note": ""
  },
  {
   "property": "C87",
   "status": "proved",
   "theorems": [
    "Mot.Props.C87_double_idempotent",
    "Mot.Props.C87_double_not_idempotent",
    "Mot.Props.C87_float_accuracy",
    "Mot.Props.C87_float_idempotent",
    "Mot.Props.C87_float_order",
    "Mot.Props.C87_special"
   ],
   "note": ""
  },
  {
   "property": "C88",
   "status": "proved",
   "theorems": [
    "Mot.Props.C88_nan",
    "Mot.Props.C88_order",
    "Mot.Props.C88_range",
    "Mot.Props.C88_two_pi",
    "Mot.Props.C88_wrap_score"
   ],
   "note": ""
  },
  {
   "property": "C89",
   "status": "proved",
   "theorems": [
    "Mot.Props.C89_absorbed",
    "Mot.Props.C89_absorbed_if",
    "Mot.Props.C89_accuracy_straight",
    "Mot.Props.C89_accuracy_turn",
    "Mot.Props.C89_exact_displacement",
    "Mot.Props.C89_nan_example",
    "Mot.Props.C89_stuck",
    "Mot.Props.C89_stuck_example",
    "Mot.Props.C89_zero_step"
   ],
   "note": ""
  },
  {
   "property": "C90",
   "status": "proved",
   "theorems": [
    "Mot.Props.C90_accuracy_straight",
    "Mot.Props.C90_accuracy_turn",
    "Mot.Props.C90_heading",
    "Mot.Props.C90_never_finite",
    "Mot.Props.C90_noise_acceleration",
    "Mot.Props.C90_noise_heading",
    "Mot.Props.C90_noise_position",
    "Mot.Props.C90_noise_rates",
    "Mot.Props.C90_zero_noise",
    "Mot.Props.C90_zero_step_moves"
   ],
   "note": ""
  },
  {
   "property": "C91",
   "status": "proved",
   "theorems": [
    "Mot.Props.C91_breakdown",
    "Mot.Props.C91_breakdown_association",
    "Mot.Props.C91_breakdown_prediction",
    "Mot.Props.C91_covariance_weights",
    "Mot.Props.C91_lambda",
    "Mot.Props.C91_lambda_one",
    "Mot.Props.C91_spread",
    "Mot.Props.C91_sum",
    "Mot.Props.C91_sum_example"
   ],
   "note": ""
  },
  {
   "property": "C92",
   "status": "proved",
   "theorems": [
    "Mot.Props.C92_covariance",
    "Mot.Props.C92_mean",
    "Mot.Props.C92_not_symmetric",
    "Mot.Props.C92_prediction",
    "Mot.Props.C92_variance_nonneg",
    "Mot.Props.C92_weights_nonneg"
   ],
   "note": ""
  },
  {
   "property": "C93",
   "status": "partial",
   "theorems": [
    "Mot.Props.C93_gnn_partial",
    "Mot.Props.C93_iff",
    "Mot.Props.C93_newline_ambiguous",
    "Mot.Props.C93_plain_partial",
    "Mot.Props.C93_single_partial",
    "Mot.Props.C93_space_ambiguous",
    "Mot.Props.C93_text"
   ],
   "note": "false as stated (C93_space_ambiguous, C93_newline_ambiguous); C93_plain_partial, C93_single_partial and C93_gnn_partial prove what holds; C93_iff says exactly what the report determines if no UUID contains a newline"
  },
  {
   "property": "C94",
   "status": "proved",
   "theorems": [
    "Mot.Props.C94_breakdown_ctra",
    "Mot.Props.C94_breakdown_ctrv",
    "Mot.Props.C94_default_ctrv",
    "Mot.Props.C94_exists",
    "Mot.Props.C94_float_ctra",
    "Mot.Props.C94_float_ctrv",
    "Mot.Props.C94_grid_ctra",
    "Mot.Props.C94_grid_ctrv",
    "Mot.Props.C94_kept_ctra",
    "Mot.Props.C94_kept_ctrv",
    "Mot.Props.C94_score_reads",
    "Mot.Props.C94_textbook",
    "Mot.Props.C94_zero_time"
   ],
   "note": ""
  },
  {
   "property": "C95",
   "status": "proved",
   "theorems": [
    "Mot.Props.C95_cov_ctra",
    "Mot.Props.C95_cov_ctrv",
    "Mot.Props.C95_mean_ctra",
    "Mot.Props.C95_mean_ctrv",
    "Mot.Props.C95_points_ctra",
    "Mot.Props.C95_points_ctrv"
   ],
   "note": ""
  },
  {
   "property": "C96",
   "status": "proved",
   "theorems": [
    "Mot.Props.C96_exact_iff_ctra",
    "Mot.Props.C96_exact_iff_ctrv",
    "Mot.Props.C96_heading_ctra",
    "Mot.Props.C96_heading_ctrv"
   ],
   "note": ""
  },
  {
   "property": "C97",
   "status": "proved",
   "theorems": [
    "Mot.Props.C97_accuracy",
    "Mot.Props.C97_diagonal",
    "Mot.Props.C97_exact_coordinate",
    "Mot.Props.C97_exact_coordinate_ub",
    "Mot.Props.C97_inverse",
    "Mot.Props.C97_nan_pose",
    "Mot.Props.C97_negative_square",
    "Mot.Props.C97_overflow",
    "Mot.Props.C97_pose_block",
    "Mot.Props.C97_pose_order",
    "Mot.Props.C97_range",
    "Mot.Props.C97_self",
    "Mot.Props.C97_singular",
    "Mot.Props.C97_symmetric",
    "Mot.Props.C97_ub_iff",
    "Mot.Props.C97_underflow"
   ],
   "note": ""
  },
  {
   "property": "C98",
   "status": "proved",
   "theorems": [
    "Mot.Props.C98_accuracy_ctra",
    "Mot.Props.C98_accuracy_ctrv",
    "Mot.Props.C98_association_ub",
    "Mot.Props.C98_eigen",
    "Mot.Props.C98_exact_fusing",
    "Mot.Props.C98_exact_weight",
    "Mot.Props.C98_exists",
    "Mot.Props.C98_float_ctra",
    "Mot.Props.C98_float_ctrv",
    "Mot.Props.C98_frame",
    "Mot.Props.C98_grid_ctra",
    "Mot.Props.C98_grid_ctrv",
    "Mot.Props.C98_nonfinite_ctra",
    "Mot.Props.C98_nonfinite_ctrv",
    "Mot.Props.C98_overflow",
    "Mot.Props.C98_self_not_kept",
    "Mot.Props.C98_stays_lost_ctra",
    "Mot.Props.C98_stays_lost_ctrv",
    "Mot.Props.C98_underflow",
    "Mot.Props.C98_weight"
   ],
   "note": ""
  },
  {
   "property": "C99",
   "status": "proved",
   "theorems": [
    "Mot.Props.C99_centroid",
    "Mot.Props.C99_clusters",
    "Mot.Props.C99_clusters_centroid",
    "Mot.Props.C99_detection_types",
    "Mot.Props.C99_distance",
    "Mot.Props.C99_exactly_one",
    "Mot.Props.C99_heading",
    "Mot.Props.C99_heading_opposite",
    "Mot.Props.C99_nonfinite_alone",
    "Mot.Props.C99_poison",
    "Mot.Props.C99_remove_forgets",
    "Mot.Props.C99_threshold"
   ],
   "note": ""
  },
  {
   "property": "C100",
   "status": "proved",
   "theorems": [
    "Mot.Props.C100_clash",
    "Mot.Props.C100_completes_iff",
    "Mot.Props.C100_durations",
    "Mot.Props.C100_fuse_same",
    "Mot.Props.C100_library",
    "Mot.Props.C100_never_throws",
    "Mot.Props.C100_period",
    "Mot.Props.C100_predict_same",
    "Mot.Props.C100_predict_succeeds",
    "Mot.Props.C100_timestamps"
   ],
   "note": ""
  },
  {
   "property": "C101",
   "status": "proved",
   "theorems": [
    "Mot.Props.C101_associate_ub",
    "Mot.Props.C101_completed",
    "Mot.Props.C101_euclid",
    "Mot.Props.C101_fuse",
    "Mot.Props.C101_gate",
    "Mot.Props.C101_happens",
    "Mot.Props.C101_mahalanobis",
    "Mot.Props.C101_next_period",
    "Mot.Props.C101_period_ub",
    "Mot.Props.C101_predict"
   ],
   "note": ""
  },
  {
   "property": "C102",
   "status": "proved",
   "theorems": [
    "Mot.Props.C102_association",
    "Mot.Props.C102_completes",
    "Mot.Props.C102_enters",
    "Mot.Props.C102_forced",
    "Mot.Props.C102_gap_needed",
    "Mot.Props.C102_period",
    "Mot.Props.C102_positions",
    "Mot.Props.C102_run",
    "Mot.Props.C102_seen",
    "Mot.Props.C102_unseen"
   ],
   "note": ""
  },
  {
   "property": "C103",
   "status": "proved",
   "theorems": [
    "Mot.Props.C103_clock",
    "Mot.Props.C103_finite",
    "Mot.Props.C103_no_drift",
    "Mot.Props.C103_not_a_time",
    "Mot.Props.C103_position_straight",
    "Mot.Props.C103_position_turn",
    "Mot.Props.C103_stamp",
    "Mot.Props.C103_step"
   ],
   "note": ""
  },
  {
   "property": "C104",
   "status": "proved",
   "theorems": [
    "Mot.Props.C104_augmented",
    "Mot.Props.C104_basic",
    "Mot.Props.C104_exact",
    "Mot.Props.C104_linked",
    "Mot.Props.C104_no_hash",
    "Mot.Props.C104_not_exact",
    "Mot.Props.C104_overflow",
    "Mot.Props.C104_sound",
    "Mot.Props.C104_states",
    "Mot.Props.C104_states_linked",
    "Mot.Props.C104_tolerance"
   ],
   "note": ""
  },
  {
   "property": "C105",
   "status": "proved",
   "theorems": [
    "Mot.Props.C105_class",
    "Mot.Props.C105_coarse",
    "Mot.Props.C105_coarse_text",
    "Mot.Props.C105_coarse_timestamps",
    "Mot.Props.C105_columns",
    "Mot.Props.C105_container_iff",
    "Mot.Props.C105_exact",
    "Mot.Props.C105_exponent_iff",
    "Mot.Props.C105_forged",
    "Mot.Props.C105_monotone",
    "Mot.Props.C105_no_trailing_zero",
    "Mot.Props.C105_number",
    "Mot.Props.C105_object_iff",
    "Mot.Props.C105_relative",
    "Mot.Props.C105_rounding_unique",
    "Mot.Props.C105_state_iff",
    "Mot.Props.C105_text_iff"
   ],
   "note": ""
  },
  {
   "property": "C106",
   "status": "proved",
   "theorems": [
    "Mot.Props.C106_between",
    "Mot.Props.C106_covariance",
    "Mot.Props.C106_exists",
    "Mot.Props.C106_heading_ctra",
    "Mot.Props.C106_heading_ctrv",
    "Mot.Props.C106_mean",
    "Mot.Props.C106_rate",
    "Mot.Props.C106_state_ctra",
    "Mot.Props.C106_state_ctrv",
    "Mot.Props.C106_weight"
   ],
   "note": ""
  },
  {
   "property": "C107",
   "status": "proved",
   "theorems": [
    "Mot.Props.C107_fused_tracks",
    "Mot.Props.C107_tight",
    "Mot.Props.C107_twice",
    "Mot.Props.C107_variance"
   ],
   "note": ""
  },
  {
   "property": "C108",
   "status": "proved",
   "theorems": [
    "Mot.Props.C108_fused_ctra",
    "Mot.Props.C108_fused_ctrv",
    "Mot.Props.C108_intersection",
    "Mot.Props.C108_run"
   ],
   "note": ""
  },
  {
   "property": "C109",
   "status": "proved",
   "theorems": [
    "Mot.Props.C109_between",
    "Mot.Props.C109_compromise",
    "Mot.Props.C109_far",
    "Mot.Props.C109_far_heading",
    "Mot.Props.C109_nearer"
   ],
   "note": ""
  },
  {
   "property": "C110",
   "status": "proved",
   "theorems": [
    "Mot.Props.C110_bounded",
    "Mot.Props.C110_library"
   ],
   "note": ""
  },
  {
   "property": "C111",
   "status": "proved",
   "theorems": [
    "Mot.Props.C111_angle",
    "Mot.Props.C111_augmented",
    "Mot.Props.C111_comm",
    "Mot.Props.C111_heading",
    "Mot.Props.C111_not_undone",
    "Mot.Props.C111_scale",
    "Mot.Props.C111_self",
    "Mot.Props.C111_sum",
    "Mot.Props.C111_to_vector",
    "Mot.Props.C111_undo",
    "Mot.Props.C111_vector"
   ],
   "note": ""
  },
  {
   "property": "C112",
   "status": "proved",
   "theorems": [
    "Mot.Props.C112_cluster_false",
    "Mot.Props.C112_cluster_later",
    "Mot.Props.C112_cycle",
    "Mot.Props.C112_fuse",
    "Mot.Props.C112_fuse_later",
    "Mot.Props.C112_next",
    "Mot.Props.C112_next_false",
    "Mot.Props.C112_period",
    "Mot.Props.C112_period_later",
    "Mot.Props.C112_predict",
    "Mot.Props.C112_predict_later",
    "Mot.Props.C112_rateKept",
    "Mot.Props.C112_scores",
    "Mot.Props.C112_scores_later"
   ],
   "note": ""
  },
  {
   "property": "C113",
   "status": "proved",
   "theorems": [
    "Mot.Props.C113_ctra",
    "Mot.Props.C113_ctrv",
    "Mot.Props.C113_default",
    "Mot.Props.C113_default_ctra",
    "Mot.Props.C113_far"
   ],
   "note": ""
  },
  {
   "property": "C114",
   "status": "proved",
   "theorems": [
    "Mot.Props.C114_ctra",
    "Mot.Props.C114_ctrv",
    "Mot.Props.C114_heading",
    "Mot.Props.C114_heading_ctra",
    "Mot.Props.C114_position_false"
   ],
   "note": ""
  },
  {
   "property": "C115",
   "status": "proved",
   "theorems": [
    "Mot.Props.C115_diagonal",
    "Mot.Props.C115_diagonal_ctra",
    "Mot.Props.C115_one_radian",
    "Mot.Props.C115_one_radian_ctra",
    "Mot.Props.C115_singular",
    "Mot.Props.C115_turn"
   ],
   "note": ""
  },
  {
   "property": "C116",
   "status": "proved",
   "theorems": [
    "Mot.Props.C116_contract",
    "Mot.Props.C116_exact",
    "Mot.Props.C116_int"
   ],
   "note": ""
  },
  {
   "property": "C117",
   "status": "partial",
   "theorems": [
    "Mot.Props.C117_fits_partial",
    "Mot.Props.C117_iff",
    "Mot.Props.C117_overflow"
   ],
   "note": "false as stated (C117_overflow); C117_fits_partial proves what holds, C117_iff says exactly when the call returns; dlib modelled from knowledge of the library"
  },
  {
   "property": "C118",
   "status": "partial",
   "theorems": [
    "Mot.Props.C118_wraparound_not_optimal",
    "Mot.Props.C118_wraparound_partial"
   ],
   "note": "false as stated (C118_wraparound_not_optimal); C118_wraparound_partial proves what holds"
  },
  {
   "property": "C119",
   "status": "proved",
   "theorems": [
    "Mot.Props.C119_one",
    "Mot.Props.C119_pairs_fit",
    "Mot.Props.C119_periods",
    "Mot.Props.C119_reached",
    "Mot.Props.C119_rounds"
   ],
   "note": ""
  },
  {
   "property": "C120",
   "status": "proved",
   "theorems": [
    "Mot.Props.C120_determined",
    "Mot.Props.C120_distances",
    "Mot.Props.C120_factor_two",
    "Mot.Props.C120_positions"
   ],
   "note": ""
  },
  {
   "property": "C121",
   "status": "proved",
   "theorems": [
    "Mot.Props.C121_contract",
    "Mot.Props.C121_diagonal",
    "Mot.Props.C121_diagonal_iff",
    "Mot.Props.C121_first",
    "Mot.Props.C121_gives_up_iff",
    "Mot.Props.C121_known_x",
    "Mot.Props.C121_left_over",
    "Mot.Props.C121_lower_only",
    "Mot.Props.C121_own_time",
    "Mot.Props.C121_squares",
    "Mot.Props.C121_squares_ctra",
    "Mot.Props.C121_success_iff",
    "Mot.Props.C121_wrong"
   ],
   "note": "Eigen modelled from knowledge of the library; the two CTRA unit tests of the repository, whose covariance is not positive definite, confirm the model (Mot.Checks.UnscentedKalmanFilter_CtraPrediction, Mot.Checks.TemporalAlignment_CtraDetection)"
  },
  {
   "property": "C122",
   "status": "proved",
   "theorems": [
    "Mot.Props.C122_accurate",
    "Mot.Props.C122_correlations",
    "Mot.Props.C122_defined",
    "Mot.Props.C122_diagonal",
    "Mot.Props.C122_first_infinite",
    "Mot.Props.C122_gives_up",
    "Mot.Props.C122_left_over",
    "Mot.Props.C122_lower_only",
    "Mot.Props.C122_nan",
    "Mot.Props.C122_positive_definite_fails"
   ],
   "note": ""
  },
  {
   "property": "C123",
   "status": "proved",
   "theorems": [
    "Mot.Props.C123_defined",
    "Mot.Props.C123_forever",
    "Mot.Props.C123_infinite",
    "Mot.Props.C123_infinite_twice",
    "Mot.Props.C123_nan",
    "Mot.Props.C123_period_ub",
    "Mot.Props.C123_upper_ctra",
    "Mot.Props.C123_upper_ctrv"
   ],
   "note": ""
  },
  {
   "property": "C124",
   "status": "proved",
   "theorems": [
    "Mot.Props.C124_evidence",
    "Mot.Props.C124_hit_can_cost",
    "Mot.Props.C124_promotion",
    "Mot.Props.C124_readd_needed",
    "Mot.Props.C124_removal",
    "Mot.Props.C124_thresholds"
   ],
   "note": ""
  },
  {
   "property": "C125",
   "status": "proved",
   "theorems": [
    "Mot.Props.C125_kept_ctra",
    "Mot.Props.C125_kept_ctrv",
    "Mot.Props.C125_offsets",
    "Mot.Props.C125_points_ctra",
    "Mot.Props.C125_points_ctrv"
   ],
   "note": ""
  },
  {
   "property": "C126",
   "status": "proved",
   "theorems": [
    "Mot.Props.C126_ctra",
    "Mot.Props.C126_ctra_admissible",
    "Mot.Props.C126_ctrv",
    "Mot.Props.C126_ctrv_admissible",
    "Mot.Props.C126_heading_sharp",
    "Mot.Props.C126_rate_sharp",
    "Mot.Props.C126_speed_sharp",
    "Mot.Props.C126_truth",
    "Mot.Props.C126_unscented_ctra",
    "Mot.Props.C126_unscented_ctrv"
   ],
   "note": ""
  },
  {
   "property": "C127",
   "status": "proved",
   "theorems": [
    "Mot.Props.C127_ctra",
    "Mot.Props.C127_ctrv",
    "Mot.Props.C127_default_ctra",
    "Mot.Props.C127_default_ctrv",
    "Mot.Props.C127_kappa"
   ],
   "note": ""
  },
  {
   "property": "C128",
   "status": "proved",
   "theorems": [
    "Mot.Props.C128_associate",
    "Mot.Props.C128_euclid",
    "Mot.Props.C128_one_kind",
    "Mot.Props.C128_period"
   ],
   "note": ""
  },
  {
   "property": "C129",
   "status": "proved",
   "theorems": [
    "Mot.Props.C129_finite",
    "Mot.Props.C129_period"
   ],
   "note": ""
  },
  {
   "property": "C130",
   "status": "proved",
   "theorems": [
    "Mot.Props.C130_ctra",
    "Mot.Props.C130_ctrv",
    "Mot.Props.C130_heading_ctra",
    "Mot.Props.C130_heading_ctrv",
    "Mot.Props.C130_heading_lost",
    "Mot.Props.C130_heading_lost_ctra",
    "Mot.Props.C130_lost",
    "Mot.Props.C130_lost_ctra",
    "Mot.Props.C130_position_ctra",
    "Mot.Props.C130_position_ctrv"
   ],
   "note": ""
  },
  {
   "property": "C131",
   "status": "proved",
   "theorems": [
    "Mot.Props.C131_apart",
    "Mot.Props.C131_association",
    "Mot.Props.C131_ctra",
    "Mot.Props.C131_ctrv",
    "Mot.Props.C131_follows",
    "Mot.Props.C131_high_ctra",
    "Mot.Props.C131_high_ctrv",
    "Mot.Props.C131_period",
    "Mot.Props.C131_tight",
    "Mot.Props.C131_tight_ctra"
   ],
   "note": ""
  },
  {
   "property": "C132",
   "status": "proved",
   "theorems": [
    "Mot.Props.C132_absorbed",
    "Mot.Props.C132_ctra",
    "Mot.Props.C132_ctrv",
    "Mot.Props.C132_exact_ctra",
    "Mot.Props.C132_exact_ctrv",
    "Mot.Props.C132_not_finite"
   ],
   "note": ""
  },
  {
   "property": "C133",
   "status": "proved",
   "theorems": [
    "Mot.Props.C133_across_zero",
    "Mot.Props.C133_across_zero_ctra",
    "Mot.Props.C133_gate",
    "Mot.Props.C133_gate_ctra",
    "Mot.Props.C133_kept_ctra",
    "Mot.Props.C133_kept_ctrv",
    "Mot.Props.C133_safe_ctra",
    "Mot.Props.C133_safe_ctrv",
    "Mot.Props.C133_unsafe",
    "Mot.Props.C133_unsafe_ctra"
   ],
   "note": ""
  },
  {
   "property": "C134",
   "status": "proved",
   "theorems": [
    "Mot.Props.C134_apart",
    "Mot.Props.C134_association",
    "Mot.Props.C134_period",
    "Mot.Props.C134_predicted",
    "Mot.Props.C134_wrong"
   ],
   "note": ""
  }
 ]
}