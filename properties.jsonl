{"id": "C01", "title": "Managed tracks are partitioned into tentative and confirmed", "statement": "After any sequence of calls on a track manager, get_tentative_tracks, get_confirmed_tracks and get_all_tracks all return normally; every managed track appears in get_all_tracks exactly once and in exactly one of the two status lists; no two managed tracks share a UUID.", "quantifier": "every pair of thresholds and every finite history of manager calls (including calls that throw) with fewer than 2^64-3 updates (counts are 64-bit)", "why_tests_cant": "the three getters read three separate hash maps that must stay in step after every possible history; tests sample a handful of histories", "anchors": ["include/multiple_object_tracking/track_management.hpp: get_tentative_tracks, get_confirmed_tracks, get_all_tracks, update_track_lists"]}
{"id": "C02", "title": "The track manager behaves like one simple per-UUID table", "statement": "For every history of calls, every observable result (returned tracks up to order, occurrence counts, thresholds, thrown exceptions) equals that of an abstract table mapping each UUID to (track, count, confirmed?), updated one entry at a time.", "quantifier": "every history of fewer than 2^64-2 calls, every threshold, every association map", "why_tests_cant": "equivalence of two state machines over unbounded histories", "anchors": ["include/multiple_object_tracking/track_management.hpp: FixedThresholdTrackManager"]}
{"id": "C03", "title": "Occurrence counters never underflow or wrap", "statement": "Between calls every managed track has an occurrence count of at least 1, one more than the number of updates since it was added at most, and the unsigned decrement/increment inside update_track_lists never wraps around; an unmanaged UUID reports 0.", "quantifier": "every history of fewer than 2^64-2 calls", "why_tests_cant": "wrap-around would need adversarial histories of thresholds and updates", "anchors": ["include/multiple_object_tracking/track_management.hpp: update_track_lists, get_occurrences"]}
{"id": "C04", "title": "update_track_lists removes exactly the tracks at or below the removal threshold", "statement": "After update_track_lists(A) a previously managed track is still managed iff its new count (old+1 capped at the promotion threshold if its UUID is a key of A, old-1 otherwise) is strictly greater than the removal threshold; no track appears that was not managed before; survivors keep their data unchanged.", "quantifier": "every manager state reachable with fewer than 2^64-3 updates and every association map", "why_tests_cant": "needs all counts, thresholds and maps", "anchors": ["include/multiple_object_tracking/track_management.hpp: update_track_lists"]}
{"id": "C05", "title": "A track is confirmed exactly when it has been seen often enough", "statement": "A newly added track that is associated in each of the next k>=1 updates is still managed and is confirmed iff 1+k >= the promotion threshold (provided the removal threshold is below min(2, promotion threshold)); its count is min(1+k, promotion threshold). In particular it is never confirmed earlier.", "quantifier": "every k, every threshold pair with removal < min(2,promotion), every prior state reachable with fewer than 2^64-3 updates in all", "why_tests_cant": "unbounded number of updates", "anchors": ["include/multiple_object_tracking/track_management.hpp: add_tentative_track, update_track_lists"]}
{"id": "C06", "title": "Updates never demote a confirmed track", "statement": "If a track is confirmed before update_track_lists, then afterwards it is either confirmed or no longer managed. Only raising the promotion threshold through set_promotion_threshold_and_update can make it tentative again.", "quantifier": "every state reachable with fewer than 2^64-3 updates, every call", "why_tests_cant": "must hold for each reachable state", "anchors": ["include/multiple_object_tracking/track_management.hpp: update_track_lists, set_promotion_threshold_and_update"]}
{"id": "C07", "title": "An unseen track disappears after a known number of updates", "statement": "A managed track with count c that is not associated in a run of consecutive updates survives the first c-R-1 of them and is gone after the (c-R)-th (R = removal threshold, R<c); if R>=c it is gone after the first one. Hence no track that is never seen again is kept forever.", "quantifier": "every state reachable with fewer than 2^64-3 updates, every count and threshold, every run of association maps not mentioning the track", "why_tests_cant": "unbounded run length and arbitrary other tracks in the maps", "anchors": ["include/multiple_object_tracking/track_management.hpp: update_track_lists"]}
{"id": "C08", "title": "Adding a track with a UUID already managed is rejected without effect", "statement": "add_tentative_track throws std::logic_error iff a track with the same UUID is managed, and then every observable of the manager is unchanged; otherwise the track becomes managed, tentative, with count 1 and nothing else changes.", "quantifier": "every state reachable with fewer than 2^64-3 updates and every track", "why_tests_cant": "all states", "anchors": ["include/multiple_object_tracking/track_management.hpp: add_tentative_track"]}
{"id": "C09", "title": "Changing the promotion threshold reclassifies every track by its count", "statement": "After set_promotion_threshold_and_update(p) a managed track is confirmed iff its count >= p; the set of managed tracks, their data and their counts are unchanged; get_promotion_threshold returns p.", "quantifier": "every state reachable with fewer than 2^64-3 updates and every p", "why_tests_cant": "all states and thresholds", "anchors": ["include/multiple_object_tracking/track_management.hpp: set_promotion_threshold_and_update, get_promotion_threshold"]}
{"id": "C10", "title": "Changing the removal threshold prunes exactly the tracks at or below it", "statement": "After set_removal_threshold_and_update(r) exactly the tracks whose count was > r remain, with data, status and count unchanged; get_removal_threshold returns r.", "quantifier": "every state reachable with fewer than 2^64-3 updates and every r", "why_tests_cant": "all states and thresholds", "anchors": ["include/multiple_object_tracking/track_management.hpp: set_removal_threshold_and_update, get_removal_threshold"]}
{"id": "C11", "title": "A promotion threshold not above the removal threshold loses every track", "statement": "If the promotion threshold is <= the removal threshold then every update in which a track is associated removes that track, and a track survives an update only if it was not associated; a track can never become confirmed by updates.", "quantifier": "every state reachable with fewer than 2^64-3 updates with promotion <= removal", "why_tests_cant": "a misconfiguration that only an all-states argument characterises", "anchors": ["include/multiple_object_tracking/track_management.hpp: update_track_lists"]}
{"id": "C12", "title": "update_track changes only the addressed track's estimate", "statement": "A successful update_track(id, ...) sets the timestamp, state and covariance of track id to the given values and changes nothing else: not its UUID, semantic class, status or count, and no other track. For an unmanaged id it throws std::out_of_range and changes nothing.", "quantifier": "every state reachable with fewer than 2^64-3 updates, id and payload", "why_tests_cant": "frame condition over all states", "anchors": ["include/multiple_object_tracking/track_management.hpp: update_track", "include/multiple_object_tracking/dynamic_object.hpp: set_timestamp, set_state, set_state_covariance, copy_state, copy_state_covariance"]}
{"id": "C13", "title": "A failed update_track leaves the manager as it was", "statement": "If update_track throws, no observable of the manager has changed. (FALSE of the code for variant tracks: with an incompatible motion model the timestamp is already overwritten. What holds: the addressed track's UUID, class, status, count and all other tracks are untouched, and an unknown UUID changes nothing.)", "quantifier": "every state reachable with fewer than 2^64-3 updates and payload, including payloads of the wrong motion model", "why_tests_cant": "exception safety at each internal throw point", "anchors": ["include/multiple_object_tracking/track_management.hpp: update_track", "include/multiple_object_tracking/dynamic_object.hpp: set_state_visitor, copy_state_visitor"]}
{"id": "C14", "title": "Hash-map iteration order is not observable", "statement": "If the manager's hash maps are arbitrarily re-ordered (rehash) between calls, all later results are the same up to the order of the returned track lists.", "quantifier": "every history of calls (fewer than 2^64-3 updates) and every re-ordering of the internal containers at every point", "why_tests_cant": "iteration order of unordered_map is unspecified; a test sees one order", "anchors": ["include/multiple_object_tracking/track_management.hpp: tracks_, statuses_, occurrences_"]}
{"id": "C15", "title": "update_track_lists looks only at which UUIDs are keys", "statement": "Two association maps with the same key set have the same effect; keys that are not managed are ignored; a key with an empty detection list still counts as associated.", "quantifier": "every state reachable with fewer than 2^64-3 updates and every pair of association maps", "why_tests_cant": "all maps", "anchors": ["include/multiple_object_tracking/track_management.hpp: update_track_lists"]}
{"id": "C16", "title": "The score map contains exactly the comparable pairs with their metric values", "statement": "score_tracks_and_detections returns an entry for (t,d) iff some track with UUID t and some detection with UUID d have a score under the metric; with distinct UUIDs the entry is exactly that metric value; with repeated UUIDs it is the value of the last such pair in track-major order.", "quantifier": "all vectors of tracks and detections (any sizes, repeated UUIDs allowed) and all metrics", "why_tests_cant": "unbounded inputs and arbitrary metric", "anchors": ["include/multiple_object_tracking/scoring.hpp: score_tracks_and_detections"]}
{"id": "C17", "title": "Objects of different motion models are never scored against each other", "statement": "euclidean_distance_score and mahalanobis_distance_score return a value iff track and detection use the same motion model; a score map built with them has no entry for a cross-model pair of objects with distinct UUIDs.", "quantifier": "all variant tracks and detections", "why_tests_cant": "all combinations of data", "anchors": ["include/multiple_object_tracking/scoring.hpp: euclidean_distance_score_fn, mahalanobis_distance_score_fn"]}
{"id": "C18", "title": "Pruning removes exactly the scores satisfying the predicate", "statement": "After prune_track_and_detection_scores_if(scores, p) an entry is present iff it was present before and p(score) is false, with its value unchanged; pruning twice equals pruning once; the predicate is evaluated once per entry in key order, also when it is stateful.", "quantifier": "all score maps and all (possibly stateful) predicates", "why_tests_cant": "arbitrary predicates and maps", "anchors": ["include/multiple_object_tracking/gating.hpp: prune_track_and_detection_scores_if"]}
{"id": "C19", "title": "Association is one-to-one and mentions only scored UUIDs", "statement": "Whenever gnn_associator returns, every track key maps to exactly one detection, no detection is given to two tracks, every track key occurs as a track in the score map and every detection occurs as a detection in it.", "quantifier": "all score maps and any assignment solver that returns a permutation", "why_tests_cant": "all sizes and all solver tie-breakings", "anchors": ["include/multiple_object_tracking/track_matching.hpp: gnn_associator, association_map_from_score_map"]}
{"id": "C20", "title": "Association uses as many objects as possible", "statement": "Whenever gnn_associator returns, it returns exactly min(#distinct tracks, #distinct detections) associations (tracks/detections occurring in the score map); so with no more tracks than detections every scored track is associated.", "quantifier": "all score maps and any permutation-returning solver", "why_tests_cant": "all sizes", "anchors": ["include/multiple_object_tracking/track_matching.hpp: gnn_associator", "include/multiple_object_tracking/detail/dlib_extensions.hpp: make_square_matrix"]}
{"id": "C21", "title": "For a complete score map the association is globally nearest up to a stated resolution", "statement": "If every track/detection pair occurring is scored, scores are finite, non-negative binary32 numbers and the largest is m>0, then the total score of the returned association exceeds the total score of any other one-to-one association of the same size by at most 22*k*m/1e8, k=min(#tracks,#detections). (Exact minimality is FALSE because costs are rounded to float and truncated to integers: there is a 2x2 map of float scores on which every optimal solver yields the strictly worse association.)", "quantifier": "all complete score maps, all optimal solvers, all competing associations", "why_tests_cant": "optimality over exponentially many assignments with rounding", "anchors": ["include/multiple_object_tracking/track_matching.hpp: cost_matrix_from_score_matrix, gnn_associator"]}
{"id": "C22", "title": "A pair that was gated out is never associated", "statement": "gnn_associator associates (t,d) only if (t,d) has an entry in the score map. (FALSE of the code: a missing pair gets cost 0, which still beats padding, so it can be, and sometimes must be, chosen. What holds: for scores up to 1e31 the returned association contains the largest possible number of scored pairs, and a gated pair is used exactly if no one-to-one choice of min(#tracks,#detections) scored pairs exists.)", "quantifier": "all score maps and optimal solvers", "why_tests_cant": "needs a combinatorial witness/optimality argument", "anchors": ["include/multiple_object_tracking/track_matching.hpp: association_map_from_score_map, score_matrix_from_score_map"]}
{"id": "C23", "title": "gnn_associator is free of undefined behaviour", "statement": "gnn_associator returns normally for every score map. (FALSE: an empty map takes the maximum of an empty matrix, and a map whose largest score is 0 divides 0 by 0 and converts NaN to int. What holds: for every non-empty map of finite non-negative scores with at least one positive score or at least one missing pair, all conversions are defined.)", "quantifier": "all score maps", "why_tests_cant": "the failing inputs are exactly those no test tried", "anchors": ["include/multiple_object_tracking/track_matching.hpp: gnn_associator, cost_matrix_from_score_matrix"]}
{"id": "C24", "title": "Costs reverse the score order, and gating one pair erases all score differences", "statement": "In the cost matrix, s<=s' implies cost(s)>=cost(s'), costs lie in [0,1e8], the largest score costs 0, a zero score costs 1e8 and every cost is within 11 of 1e8*(1-s/max), with exact binary32/binary64 rounding. But as soon as one pair is missing (gated), the association does not depend on the score values at all (for scores up to 1e31): two maps with the same keys give the same result, so for every optimal solver there are maps where a much closer one-to-one choice of scored pairs is passed over.", "quantifier": "all non-negative finite score matrices with positive maximum", "why_tests_cant": "all floating-point values", "anchors": ["include/multiple_object_tracking/track_matching.hpp: cost_matrix_from_score_matrix, score_matrix_from_score_map"]}
{"id": "C25", "title": "HasAssociation answers membership in the association map", "statement": "HasAssociation(A)(track) is true iff the track's UUID is a key of A; HasAssociation(A)(detection) is true iff the detection's UUID occurs in some list of A.", "quantifier": "all association maps and objects", "why_tests_cant": "all maps", "anchors": ["include/multiple_object_tracking/track_matching.hpp: HasAssociation"]}
{"id": "C26", "title": "The score matrix lists scores by UUID rank", "statement": "score_matrix_from_score_map collects exactly the track and detection UUIDs of the map in increasing order without repetition; entry (r,c) is the score of the r-th track with the c-th detection, or FLT_MAX if the pair is not scored.", "quantifier": "all score maps and all initial contents of the two sets", "why_tests_cant": "all sizes", "anchors": ["include/multiple_object_tracking/track_matching.hpp: score_matrix_from_score_map"]}
{"id": "C27", "title": "Association maps are built only from in-range assignments", "statement": "association_map_from_score_map skips a track whose assigned index is negative or at least the number of detections, throws std::out_of_range iff some in-range assignment sits at a position beyond the number of tracks, and otherwise maps the i-th smallest track to the assigned detection for exactly the remaining i. get_element_at(s,i) is the i-th smallest element, or std::out_of_range.", "quantifier": "all assignment vectors and sets", "why_tests_cant": "all vectors including malformed ones", "anchors": ["include/multiple_object_tracking/track_matching.hpp: association_map_from_score_map, get_element_at"]}
{"id": "C28", "title": "Squaring a matrix preserves its entries and pads the rest", "statement": "make_square_matrix(m, v) is square of size max(rows, cols), equals m on m's index range and v everywhere else, and every entry is initialised.", "quantifier": "all matrices (any shape, incl. empty) and values", "why_tests_cant": "all shapes", "anchors": ["include/multiple_object_tracking/detail/dlib_extensions.hpp: make_square_matrix"]}
{"id": "C29", "title": "fuse_associations fuses exactly the associated pairs", "statement": "The result lists, for each association key in UUID order, each track with that UUID in container order and each detection whose UUID is in the key's list in container order, one fused object; nothing else. With distinct UUIDs and one-detection associations there is exactly one fused track per association whose track and detection are both present; unassociated tracks are absent; missing UUIDs are skipped silently.", "quantifier": "all association maps, track and detection containers and fusion functions", "why_tests_cant": "all sizes, duplicates, missing UUIDs", "anchors": ["include/multiple_object_tracking/fusing.hpp: fuse_associations"]}
{"id": "C30", "title": "Fusion keeps the track's identity and takes the detection's time", "statement": "A fused track has the track's UUID, semantic class and motion model, and the detection's timestamp; the inputs are not modified. Fusing objects of different motion models is outside the defined domain (Eigen size mismatch).", "quantifier": "all same-model tracks and detections", "why_tests_cant": "all inputs", "anchors": ["include/multiple_object_tracking/fusing.hpp: covariance_intersection_visitor"]}
{"id": "C31", "title": "The fusion weight is a proper weight", "statement": "For symmetric positive definite inverse covariances generate_weight lies strictly between 0 and 1, and generate_weight(A,B)+generate_weight(B,A)=1 (exact real arithmetic).", "quantifier": "all positive definite matrices of any dimension n>=1", "why_tests_cant": "a determinant inequality over all matrices", "anchors": ["include/multiple_object_tracking/fusing.hpp: generate_weight"]}
{"id": "C32", "title": "Fused covariance is a valid covariance", "statement": "For positive definite covariances the fused covariance is symmetric positive definite, and its inverse is the weighted average of the inputs' inverses (exact real arithmetic).", "quantifier": "all positive definite covariances of the motion-model dimension", "why_tests_cant": "all matrices", "anchors": ["include/multiple_object_tracking/fusing.hpp: compute_covariance_intersection, covariance_intersection_visitor"]}
{"id": "C33", "title": "Covariance intersection is consistent for unknown correlation", "statement": "If the two input covariances are upper bounds on the true error covariances, then for every cross-correlation of the two errors the fused covariance is an upper bound on the covariance of the fused estimate's error (exact real arithmetic, linear part).", "quantifier": "all true joint error covariances, all weights in (0,1), all dimensions", "why_tests_cant": "quantifies over unknown joint distributions", "anchors": ["include/multiple_object_tracking/fusing.hpp: compute_covariance_intersection"]}
{"id": "C34", "title": "Fusion is symmetric and idempotent", "statement": "Swapping the two estimates gives the same fused mean and covariance; fusing an estimate with an equal estimate returns that estimate (up to the yaw representation) (exact real arithmetic).", "quantifier": "all positive definite covariances and means", "why_tests_cant": "all matrices", "anchors": ["include/multiple_object_tracking/fusing.hpp: compute_covariance_intersection, generate_weight"]}
{"id": "C35", "title": "Fused yaw lies near the input yaws", "statement": "If two headings differ by a small angle, the fused heading is between them. (FALSE around pi: headings pi-0.1 and pi+0.1 with identity covariances fuse to heading about 0. What holds: with both headings on the same side of the branch, i.e. both in [0,c] or both in (c,2pi), c=3.14159265359, equal covariances give the midpoint heading; and with equal covariances the result is the mean of the two directions, up to 2e-12, exactly if they are on the same side and at most pi apart, or on different sides and, as numbers, at least pi apart.)", "quantifier": "all heading pairs", "why_tests_cant": "circular wrap-around case analysis over reals", "anchors": ["include/multiple_object_tracking/fusing.hpp: compute_covariance_intersection"]}
{"id": "C36", "title": "Propagation sets the time and keeps identity; prediction does not touch its input", "statement": "propagate_to_time(o,t,prop) calls the propagator once with duration t - o.timestamp, sets the timestamp to t and leaves UUID, semantic class and motion model unchanged, for any propagator; predict_to_time returns what propagate_to_time would produce.", "quantifier": "all objects, times (past or future) and propagators", "why_tests_cant": "arbitrary propagators", "anchors": ["include/multiple_object_tracking/temporal_alignment.hpp: propagate_to_time, predict_to_time"]}
{"id": "C37", "title": "Unscented-transform tuning parameters are honoured", "statement": "UnscentedTransform{alpha,beta,kappa} predicts with exactly those parameters. (FALSE: operator() and UkfPredictionVisitor pass kappa where beta is expected and vice versa; the result is the filter's prediction for (alpha,kappa,beta), which coincides with the requested one when beta=kappa. The swap is observable.)", "quantifier": "all parameter triples, states, covariances, durations", "why_tests_cant": "needs a distinguishing state or an all-states equality", "anchors": ["include/multiple_object_tracking/temporal_alignment.hpp: UnscentedTransform", "include/multiple_object_tracking/unscented_kalman_filter.hpp: UkfPredictionVisitor, unscented_kalman_filter_predict"]}
{"id": "C38", "title": "Sigma-point weights are normalised", "statement": "For n + lambda != 0 generate_weights returns 2n+1 weights each, the mean weights sum to 1 and the covariance weights sum to 2 - alpha^2 + beta; with lambda from generate_lambda, n+lambda = alpha^2 (n+kappa), so the weights are defined iff alpha != 0 and kappa != -n (exact real arithmetic).", "quantifier": "all n and all tuning parameters", "why_tests_cant": "all parameters", "anchors": ["include/multiple_object_tracking/unscented_transform.hpp: generate_lambda, generate_weights"]}
{"id": "C39", "title": "Sigma points are symmetric around the state and reproduce it", "statement": "generate_sigma_points returns 2n points, in pairs state+d_i, state-d_i with d_i = sqrt(n+lambda) times the i-th Cholesky column; on the vector (unwrapped) coordinates the weighted mean of state and points is the state and their weighted covariance is the input covariance (exact real arithmetic).", "quantifier": "all states and positive definite covariances, all admissible parameters", "why_tests_cant": "all matrices", "anchors": ["include/multiple_object_tracking/unscented_transform.hpp: generate_sigma_points, mean_and_sigma_points_to_matrix_xf, compute_unscented_transform"]}
{"id": "C40", "title": "The unscented transform is exact for affine motion", "statement": "unscented_kalman_filter_predict returns the weighted mean and covariance of the state and its sigma points moved by the motion model, headings above 3.14159265359 shifted by 2*3.14159265359; compute_unscented_transform returns weighted mean and covariance, and if the points are mapped by x -> Mx+b it returns mean Mx+b and covariance M P M^T (exact real arithmetic).", "quantifier": "all affine maps, states, covariances and admissible parameters", "why_tests_cant": "all matrices", "anchors": ["include/multiple_object_tracking/unscented_transform.hpp: compute_unscented_transform"]}
{"id": "C41", "title": "Predicting to the current time is a no-op", "statement": "Propagating an object to its own timestamp leaves state and covariance unchanged. (FALSE when the sigma points' yaw straddles pi or 0: e.g. yaw = pi with yaw variance changes the heading. What holds: if all sigma-point yaws stay on one side of the branch, state and covariance are unchanged.) (exact real arithmetic)", "quantifier": "all states and positive definite covariances", "why_tests_cant": "wrap-around case split over reals", "anchors": ["include/multiple_object_tracking/unscented_kalman_filter.hpp: unscented_kalman_filter_predict", "include/multiple_object_tracking/temporal_alignment.hpp: propagate_to_time"]}
{"id": "C42", "title": "Predicted covariance is a valid covariance", "statement": "The predicted covariance is symmetric for all parameters, and positive semidefinite whenever the covariance weights are non-negative, in particular for default_unscented_transform, for every state, covariance and duration. With a negative centre weight this fails: UnscentedTransform{1, 2, -2} (alpha = 1, beta = 2, kappa = 3 - n) predicts a CTRV object with positive definite covariance to a negative variance of the x position. The exchange of beta and kappa (C37) is the cause: in the right order these parameters give a positive semidefinite covariance for every CTRV object whenever 1/2 <= alpha^2 <= 3 (exact real arithmetic).", "quantifier": "all states, covariances, durations, motion models", "why_tests_cant": "all inputs", "anchors": ["include/multiple_object_tracking/unscented_transform.hpp: compute_unscented_transform", "include/multiple_object_tracking/unscented_kalman_filter.hpp: unscented_kalman_filter_predict"]}
{"id": "C43", "title": "A zero time step does not move an object", "statement": "get_next_state(s, 0) = s for both motion models (exact real arithmetic).", "quantifier": "all states", "why_tests_cant": "all states", "anchors": ["src/ctrv_model.cpp: get_next_state", "src/ctra_model.cpp: get_next_state"]}
{"id": "C44", "title": "CTRV prediction composes", "statement": "For yaw rates that are zero or at least DBL_MIN in magnitude, get_next_state(get_next_state(s,t1),t2) = get_next_state(s,t1+t2); predicting forward and back returns to s; speed and yaw rate never change (exact real arithmetic).", "quantifier": "all CTRV states and all (also negative) durations", "why_tests_cant": "all reals", "anchors": ["src/ctrv_model.cpp: get_next_state"]}
{"id": "C45", "title": "CTRV prediction solves its equation of motion", "statement": "The predicted position has time derivative (v cos yaw, v sin yaw) and the heading advances by yaw_rate*t modulo 2 pi, as documented (exact real arithmetic).", "quantifier": "all states with admissible yaw rate, all times", "why_tests_cant": "differential statement", "anchors": ["src/ctrv_model.cpp: get_next_state", "docs/system_design/motion_models.rst"]}
{"id": "C46", "title": "CTRA prediction composes", "statement": "Same as C44 for the CTRA model: composition, reversibility, constant acceleration and yaw rate, velocity v + a t.", "quantifier": "all CTRA states and durations", "why_tests_cant": "all reals", "anchors": ["src/ctra_model.cpp: get_next_state"]}
{"id": "C47", "title": "CTRA prediction solves its equation of motion", "statement": "The predicted CTRA position has time derivative ((v+at) cos yaw(t), (v+at) sin yaw(t)).", "quantifier": "all states with admissible yaw rate, all times", "why_tests_cant": "differential statement", "anchors": ["src/ctra_model.cpp: get_next_state"]}
{"id": "C48", "title": "CTRA with zero acceleration is CTRV", "statement": "With acceleration 0 get_next_state of the CTRA model agrees with the CTRV model on the five common components (exact real arithmetic).", "quantifier": "all states and durations", "why_tests_cant": "all reals", "anchors": ["src/ctra_model.cpp: get_next_state", "src/ctrv_model.cpp: get_next_state"]}
{"id": "C49", "title": "Process noise enters additively and vanishes at zero", "statement": "With zero noise the noisy get_next_state equals the noiseless one; with noise (a,w) position is displaced by a t^2/2 along the initial heading, speed by a t, heading by w t^2/2, yaw rate by w t (and CTRA acceleration by a).", "quantifier": "all states, durations and noise values", "why_tests_cant": "all reals", "anchors": ["src/ctrv_model.cpp: get_next_state", "src/ctra_model.cpp: get_next_state"]}
{"id": "C50", "title": "Predicted displacement is bounded by distance travelled", "statement": "A CTRV object predicted by t moves at most |v t| from its position, a CTRA object at most |v t| + |a| t^2/2; with zero yaw rate exactly |v t| and |v t + a t^2/2| (exact real arithmetic).", "quantifier": "all states of both models and all durations", "why_tests_cant": "all reals", "anchors": ["src/ctrv_model.cpp: get_next_state", "src/ctra_model.cpp: get_next_state"]}
{"id": "C51", "title": "An Angle reports a canonical value congruent to what was stored", "statement": "Angle(x).get_angle() lies in [0,2pi) and differs from x by a multiple of 2pi; it equals x when 0<=x<2pi; equal angles report equal values (exact real arithmetic).", "quantifier": "all real x", "why_tests_cant": "all reals", "anchors": ["include/multiple_object_tracking/angle.hpp: Angle, get_angle, set_angle"]}
{"id": "C52", "title": "Angle addition is arithmetic modulo 2 pi", "statement": "Addition and subtraction of angles agree with real addition/subtraction modulo 2 pi; addition is associative and commutative, (a+b)-b=a (exact real arithmetic).", "quantifier": "all angles", "why_tests_cant": "all reals", "anchors": ["include/multiple_object_tracking/angle.hpp: operator+, operator-"]}
{"id": "C53", "title": "Angle scaling acts on the canonical representative", "statement": "a*r and a/r store r*get_angle() and get_angle()/r; (a/r)*r = a for r>=1; integer scaling is compatible with addition. (That scaling distributes over addition for all factors, or that (a*2)/2=a, is FALSE.)", "quantifier": "all angles and factors, divisors other than 0 (exact real arithmetic)", "why_tests_cant": "all reals", "anchors": ["include/multiple_object_tracking/angle.hpp: operator*, operator/"]}
{"id": "C54", "title": "State arithmetic and vector conversion are mutually inverse", "statement": "(s + d) - d = s for valid states; from_eigen_vector(to_eigen_vector(s)) = s; to_eigen_vector(from_eigen_vector(v)) equals v with the yaw reduced to [0,2pi); multiplying a CTRV state by a number (CTRA states have no such operator) multiplies every component, the yaw modulo 2 pi (exact real arithmetic; both motion models).", "quantifier": "all states and vectors", "why_tests_cant": "all reals", "anchors": ["include/multiple_object_tracking/ctrv_model.hpp: operator+, operator-, from_eigen_vector, to_eigen_vector", "include/multiple_object_tracking/ctra_model.hpp"]}
{"id": "C55", "title": "Euclidean score is a metric on poses", "statement": "euclidean_distance is non-negative, symmetric, satisfies the triangle inequality and is zero iff x, y and yaw agree; it ignores speed, yaw rate and acceleration.", "quantifier": "all states of the same model", "why_tests_cant": "all reals", "anchors": ["include/multiple_object_tracking/ctrv_model.hpp: euclidean_distance", "include/multiple_object_tracking/ctra_model.hpp: euclidean_distance"]}
{"id": "C56", "title": "A small heading change changes the Euclidean score little", "statement": "The heading contribution to euclidean_distance is at most the circular distance of the headings. (FALSE: headings 0 and 2pi-0.01 are at distance about 6.27. What holds: the contribution is |get_angle difference|, which equals the circular distance when the difference is at most pi.)", "quantifier": "all states", "why_tests_cant": "wrap-around", "anchors": ["include/multiple_object_tracking/ctrv_model.hpp: euclidean_distance"]}
{"id": "C57", "title": "Mahalanobis score is well defined for valid covariances", "statement": "For a positive definite track covariance the radicand is non-negative, the distance is 0 iff the poses agree, it is symmetric in mean and point, scales as 1/sqrt(c) when the covariance is multiplied by c, and for identity covariance equals the Euclidean score (exact real arithmetic).", "quantifier": "all states and positive definite covariances", "why_tests_cant": "all matrices", "anchors": ["include/multiple_object_tracking/ctrv_model.hpp: mahalanobis_distance", "include/multiple_object_tracking/ctra_model.hpp: mahalanobis_distance"]}
{"id": "C58", "title": "Clustering partitions the detections", "statement": "For detections with distinct UUIDs, cluster_detections terminates and puts every detection in exactly one cluster, unchanged; no cluster is empty; no foreign detection appears.", "quantifier": "all detection vectors, thresholds and metrics", "why_tests_cant": "unbounded inputs, termination", "anchors": ["include/multiple_object_tracking/clustering.hpp: cluster_detections"]}
{"id": "C59", "title": "Clusters have bounded radius and separated origins", "statement": "Each cluster has an origin detection such that all its other members were within the threshold of it; the origin of a later cluster is not within the threshold of the origin of an earlier one; a threshold no distance is below yields singletons.", "quantifier": "all detection vectors, thresholds and metrics (incl. metrics yielding NaN)", "why_tests_cant": "unbounded inputs", "anchors": ["include/multiple_object_tracking/clustering.hpp: cluster_detections"]}
{"id": "C60", "title": "A cluster's centroid is the mean of its members", "statement": "get_centroid is the component-wise mean of the current members. (FALSE after clear(), which keeps the running sum; FALSE when a UUID is added twice; FALSE for yaw, where the sum is reduced modulo 2 pi before dividing. What holds: for histories of add (new UUIDs), remove and failed calls, x, y, velocity and yaw rate are the exact mean, and yaw is the sum of member yaws mod 2 pi divided by the count.) (exact real arithmetic)", "quantifier": "all histories of cluster operations", "why_tests_cant": "unbounded histories", "anchors": ["include/multiple_object_tracking/clustering.hpp: Cluster"]}
{"id": "C61", "title": "Cluster errors are reported without effect", "statement": "remove_detection of an absent UUID throws std::out_of_range and get_centroid of an empty cluster throws std::runtime_error, both without changing the cluster; removing what was just added restores the members and the sum.", "quantifier": "all cluster states", "why_tests_cant": "all states", "anchors": ["include/multiple_object_tracking/clustering.hpp: remove_detection, get_centroid, is_empty"]}
{"id": "C62", "title": "The clustering threshold is a Euclidean distance", "statement": "cluster_detections(d, r) groups by Euclidean distance below r, as documented. (FALSE: the squared distance is compared with r, so r acts as sqrt(r). What holds: grouping within Euclidean distance sqrt(r) of the origin.)", "quantifier": "all detections and thresholds", "why_tests_cant": "documentation vs code over all reals", "anchors": ["include/multiple_object_tracking/clustering.hpp: squared_euclidean_distance_fn, cluster_detections", "docs/clustering/cluster_detections.md"]}
{"id": "C63", "title": "Covariances are read row by row", "statement": "A covariance array of at least n*n numbers yields entry (i,j) = element i*n+j. (Arrays shorter than n*n are NOT rejected: memory outside the array is read.)", "quantifier": "all JSON arrays", "why_tests_cant": "all lengths", "anchors": ["include/multiple_object_tracking/json_parsing.hpp: adl_serializer<CtrvStateCovariance>, adl_serializer<CtraStateCovariance>"]}
{"id": "C64", "title": "Loading detections/tracks preserves order and rejects unsupported models", "statement": "If loading succeeds, the i-th object is the i-th entry parsed with its declared motion model (semantic class unknown); if any entry declares a motion model not supported by the requested type, the load throws and yields nothing (unless the covariance array of some entry is too short, which is undefined behaviour, C63; it never succeeds).", "quantifier": "all JSON documents and the CTRV, CTRA and variant loaders", "why_tests_cant": "all documents", "anchors": ["include/multiple_object_tracking/json_parsing.hpp: do_detections_from_json_file, do_tracks_from_json_file"]}
{"id": "C65", "title": "Serialised objects can be read back", "statement": "from_json(to_json(x)) = x. (FALSE for every x of every type: the to_json functions write nothing, so reading back always throws. What holds: the CTRV and CTRA objects that some document yields are exactly those with the default class, a float covariance and a yaw of length 1.)", "quantifier": "all values", "why_tests_cant": "all values", "anchors": ["include/multiple_object_tracking/json_parsing.hpp: to_json"]}
{"id": "C66", "title": "Rounding to a decimal place is accurate and idempotent", "statement": "round_to_decimal_place(x,d) differs from x by at most half a unit in the d-th decimal, is monotone, odd and idempotent, ties go away from zero; it acts element-wise on matrices, process noise and states (yaw modulo 2 pi) with the same accuracy (exact real arithmetic). Rounding a whole state twice is the same as rounding it once exactly if its yaw does not round up past 2 pi; otherwise it wraps to a small unrounded value (6.27 with d = 1).", "quantifier": "all x and d", "why_tests_cant": "all reals", "anchors": ["include/multiple_object_tracking/utils.hpp: round_to_decimal_place", "include/multiple_object_tracking/ctrv_model.hpp: utils::round_to_decimal_place"]}
{"id": "C67", "title": "UUID comparisons form one total order consistent with equality and hashing", "statement": "<, <=, >, >=, ==, != on Uuid are mutually consistent, < is a strict total order (lexicographic on bytes) and equal UUIDs have equal hashes and the hash is that of the whole string.", "quantifier": "all byte strings", "why_tests_cant": "all strings", "anchors": ["include/multiple_object_tracking/uuid.hpp"]}
{"id": "C68", "title": "The pipeline never fuses objects of different motion models", "statement": "Scoring, gating, associating and fusing never hands a cross-model pair to the fusion step. (FALSE: whenever there are more CTRV tracks than CTRV detections but fewer CTRA tracks than CTRA detections (or vice versa), every permutation-returning solver associates a cross-model pair, and fusing it is undefined behaviour.)", "quantifier": "all scenes of CTRV/CTRA tracks and detections", "why_tests_cant": "counting argument over all scenes", "anchors": ["include/multiple_object_tracking/track_matching.hpp: gnn_associator", "include/multiple_object_tracking/scoring.hpp: score_tracks_and_detections", "include/multiple_object_tracking/fusing.hpp: covariance_intersection_visitor"]}
{"id": "C69", "title": "A tracking cycle keeps the manager consistent", "statement": "Running score, gate, associate, fuse, update_track and update_track_lists on the manager's own tracks never throws out_of_range for a track, updates only associated tracks, and counts up exactly the associated ones (for scenes where every associated pair has one motion model).", "quantifier": "all manager states, detection sets with distinct UUIDs, metrics, gates and solvers", "why_tests_cant": "composition of all components over all states", "anchors": ["include/multiple_object_tracking/track_management.hpp", "include/multiple_object_tracking/track_matching.hpp", "include/multiple_object_tracking/fusing.hpp", "include/multiple_object_tracking/scoring.hpp"]}
{"id": "C70", "title": "The matrix given to the assignment solver has no int overflow hazard", "statement": "All differences between two elements of one row of the square integer matrix handed to dlib's max_cost_assignment (a primal-dual solver that subtracts row elements from row maxima in int) fit in int. (FALSE whenever there are more tracks than detections: padding with INT_MIN puts an element in every row whose difference from every real cost exceeds INT_MAX. What holds: with no more tracks than detections all row differences fit.)", "quantifier": "all cost matrices with entries in [0,1e8]", "why_tests_cant": "signed overflow is UB and depends on the shape of the scene", "anchors": ["include/multiple_object_tracking/track_matching.hpp: gnn_associator", "include/multiple_object_tracking/detail/dlib_extensions.hpp: make_square_matrix"]}
{"id": "C71", "title": "State comparison is an equivalence relation", "statement": "operator== on states is reflexive, symmetric and transitive, as containers and tests assume. (FALSE: it compares components with the relative tolerance of the units library and is not transitive. What holds: reflexive, symmetric; states that compare equal have exactly the same yaw and agree in the other components up to a relative 2^-51; agreement up to a relative 2^-52 suffices; along k comparisons the components drift by at most a relative (1 + 1/(2^51 - 1))^k - 1; two states are linked by some chain of comparisons exactly if they have the same yaw.) (exact real arithmetic)", "quantifier": "all states of both models", "why_tests_cant": "three-way comparison over all reals", "anchors": ["include/multiple_object_tracking/ctrv_model.hpp: operator==", "include/multiple_object_tracking/ctra_model.hpp: operator=="]}
{"id": "C72", "title": "Nearby detections share a cluster, whatever the input order", "statement": "cluster_detections(d, r) puts two detections within the threshold of each other into one cluster, as documented, independent of their order in the vector. (FALSE: detections at x = 0, 1, 2 with threshold 2 give two clusters in one order and one in another. What holds: members of a cluster are less than 2*sqrt(r) apart, and the documented behaviour, and independence of the order, hold in every order exactly if being within the threshold is transitive among the detections.)", "quantifier": "all detection vectors and thresholds", "why_tests_cant": "order dependence over all inputs", "anchors": ["include/multiple_object_tracking/clustering.hpp: cluster_detections", "docs/clustering/cluster_detections.md"]}
{"id": "C73", "title": "Every detection of a cycle is used exactly once", "statement": "After a completed tracking cycle, starting a tentative track (make_track, add_tentative_track) for each detection without association never throws if the detection UUIDs are not already managed; then every detection is either fused into exactly one track or is the estimate of its own tentative track with one occurrence, and no other track changes.", "quantifier": "all manager states, detection sets with new distinct UUIDs, metrics, gates and solvers", "why_tests_cant": "composition of all components over all states", "anchors": ["include/multiple_object_tracking/track_management.hpp", "include/multiple_object_tracking/track_matching.hpp: HasAssociation", "include/multiple_object_tracking/dynamic_object.hpp: make_track"]}
{"id": "C74", "title": "Getters, setters and copies of objects touch exactly one member", "statement": "get_timestamp/get_uuid/get_semantic_class read the member of the held alternative; set_timestamp, set_uuid, set_semantic_class, set_state, set_state_covariance and copy_* change the named member and no other; on variants, set_state, set_state_covariance and the copy functions succeed iff the argument has the type of the held alternative and otherwise throw std::runtime_error leaving the object unchanged; make_track copies every member, or every member but the given UUID.", "quantifier": "all plain and variant objects and all member values", "why_tests_cant": "all values and all combinations of alternatives", "anchors": ["include/multiple_object_tracking/dynamic_object.hpp: get_*, set_*, copy_*, make_track"]}
{"id": "C75", "title": "Augmented states and process noise behave as vectors", "statement": "AugmentedState::from_eigen_vector gives the first entries of the vector to the state and the last two to the linear and angular noise; + and - on augmented states and process noise act entry by entry (the yaw modulo 2 pi) and undo each other for valid states; == is reflexive and symmetric, compares both parts, and equal ones agree in each noise up to a relative 2^-51; rounding moves each noise to the nearest multiple of 10^-d; and the effects of process noise on get_next_state superpose: the sum of two noises has the sum of their effects (exact real arithmetic, both motion models).", "quantifier": "all vectors, augmented states, noises and time steps", "why_tests_cant": "all reals", "anchors": ["include/multiple_object_tracking/augmented_state.hpp: AugmentedState, operators, utils::round_to_decimal_place", "include/multiple_object_tracking/ctrv_model.hpp: CtrvProcessNoise", "include/multiple_object_tracking/ctra_model.hpp: CtraProcessNoise", "src/ctrv_model.cpp: get_next_state", "src/ctra_model.cpp: get_next_state"]}
{"id": "C76", "title": "Results do not depend on the origin of coordinates", "statement": "Adding a constant vector to the positions of all tracks and detections adds it to all predicted, fused and clustered positions and changes nothing else: predict_to_time, get_next_state with and without noise, covariance_intersection_visitor, the Euclidean and Mahalanobis scores (unchanged), the association map (unchanged), a whole tracking cycle and the tracks started after it, a whole period with unscented prediction and every sequence of periods, cluster_detections and the centroids of its clusters (exact real arithmetic, scores followed by any rounding).", "quantifier": "all vectors, objects, manager states, parameters, solvers, gates and thresholds", "why_tests_cant": "relates two runs over all inputs", "anchors": ["src/ctrv_model.cpp: get_next_state", "src/ctra_model.cpp: get_next_state", "include/multiple_object_tracking/unscented_kalman_filter.hpp", "include/multiple_object_tracking/fusing.hpp", "include/multiple_object_tracking/scoring.hpp", "include/multiple_object_tracking/clustering.hpp", "include/multiple_object_tracking/ctrv_model.hpp: euclidean_distance, mahalanobis_distance"]}
{"id": "C77", "title": "Results do not depend on the direction of the axes", "statement": "Turning the axes by an angle (rotating positions, adding the angle to headings, conjugating covariances) or mirroring them commutes with prediction and fusion and leaves scores unchanged. (FALSE for scores, fusion and unscented prediction, because headings are compared and averaged as numbers cut at 0 and 3.14159265359. What holds: get_next_state with and without noise commutes with turning and mirroring always; the Euclidean score is unchanged exactly if both headings cross 0 equally often or are opposite, the Mahalanobis score if no heading crosses 0; fusion commutes, covariance included, if no heading crosses 0 or 3.14159265359. Mirroring: for headings other than 0 and not within 3e-13 of pi, fusion and unscented prediction of mirrored objects give the mirrored result with the covariance exactly mirrored and a heading that is off by 4.1e-13 rad, always; the Euclidean score is unchanged exactly if both headings are 0, or none is, or they are opposite; the Mahalanobis score if both are 0 or none is.) (exact real arithmetic)", "quantifier": "all angles, states and covariances of both motion models", "why_tests_cant": "relates two runs over all inputs", "anchors": ["src/ctrv_model.cpp: get_next_state", "src/ctra_model.cpp: get_next_state", "include/multiple_object_tracking/fusing.hpp: generate_mean, covariance_intersection_visitor", "include/multiple_object_tracking/unscented_kalman_filter.hpp", "include/multiple_object_tracking/ctrv_model.hpp: euclidean_distance"]}
{"id": "C78", "title": "Results do not depend on the unit of length", "statement": "Expressing lengths, speeds, accelerations and the covariance in another unit commutes with get_next_state with and without noise, unscented prediction (for positive definite covariances), fusion, and a tracking cycle or period with the Mahalanobis score, leaves the Mahalanobis score unchanged, and multiplies the Euclidean score by the factor. (FALSE for the Euclidean score, which adds squared metres and squared radians: which of two detections is nearer depends on the unit. Unless the factor is 1 it holds exactly between objects with the same heading.) (exact real arithmetic)", "quantifier": "all factors, states, covariances and parameters of both motion models", "why_tests_cant": "relates two runs over all inputs", "anchors": ["src/ctrv_model.cpp: get_next_state", "src/ctra_model.cpp: get_next_state", "include/multiple_object_tracking/unscented_kalman_filter.hpp", "include/multiple_object_tracking/fusing.hpp", "include/multiple_object_tracking/ctrv_model.hpp: euclidean_distance, mahalanobis_distance"]}
{"id": "C79", "title": "Results do not depend on the order of tracks and detections", "statement": "For distinct UUIDs, permuting the track and detection vectors changes neither the score map, nor the association map, nor the fused list (not even its order); two managers whose getters agree up to order (for instance with differently ordered hash maps), given the same detections in any order, complete a tracking cycle in the same way and agree again afterwards, also after starting tentative tracks. (Needs distinct UUIDs: of two detections with one UUID the last in the vector counts.)", "quantifier": "all permutations, manager states, detections, metrics, gates and solvers", "why_tests_cant": "relates two runs; hash map order differs between platforms and cannot be forced in a test", "anchors": ["include/multiple_object_tracking/scoring.hpp: score_tracks_and_detections", "include/multiple_object_tracking/fusing.hpp: fuse_associations", "include/multiple_object_tracking/track_matching.hpp: gnn_associator", "include/multiple_object_tracking/track_management.hpp: get_all_tracks"]}
{"id": "C80", "title": "What happens to one track does not depend on other tracks", "statement": "Two histories of calls that contain the same calls concerning UUID u in the same order (adding u, each update with u associated or not, threshold changes, update_track of u), interleaved with arbitrary other calls, give the same results for those calls and leave the same track, count and status for u.", "quantifier": "all pairs of histories", "why_tests_cant": "relates two arbitrary histories", "anchors": ["include/multiple_object_tracking/track_management.hpp"]}
{"id": "C81", "title": "A track lives and is confirmed by hits minus misses in windows", "statement": "For any history that changes no threshold and does not re-add UUID u, with count c <= promotion threshold P at the start and removal threshold R: u is removed exactly if some window of consecutive updates starting now has misses - hits >= c - R, or one starting later has misses - hits >= P - R; u is confirmed exactly if it survives and was confirmed or, counted from the start, hits - misses once reached P - c; its count is the least such sum over windows ending now. Completed tracking cycles are such histories. A new track seen in every other update only is never confirmed and never removed (P >= 3, R = 0).", "quantifier": "all histories and managers", "why_tests_cant": "unbounded histories", "anchors": ["include/multiple_object_tracking/track_management.hpp: update_track_lists"]}
{"id": "C82", "title": "Fusing interpolates certainty and never double counts it", "statement": "For positive definite covariances: in every direction the information (inverse covariance) of the fused estimate lies between those of the two inputs and its variance is at most the larger one; its covariance is never smaller than adding up the information of independent estimates would give; if one input is at least as certain as the other in every direction the fused covariance lies between the two; inputs with the same state (heading at most 3.14159265359) but any covariances fuse to that state (exact real arithmetic).", "quantifier": "all states and positive definite covariances", "why_tests_cant": "all matrices and directions", "anchors": ["include/multiple_object_tracking/fusing.hpp: compute_covariance_intersection, generate_weight, covariance_intersection_visitor"]}
{"id": "C83", "title": "A less certain track scores no detection worse", "statement": "If covariance P is at most Q in every direction, the Mahalanobis score with Q is at most the score with P, so a gate on the score never rejects more for the less certain track; if the standard deviations lie between sqrt(a) and sqrt(b) the score lies between euclidean_distance/sqrt(b) and euclidean_distance/sqrt(a) (exact real arithmetic).", "quantifier": "all states and positive definite covariances", "why_tests_cant": "all matrices", "anchors": ["include/multiple_object_tracking/ctrv_model.hpp: mahalanobis_distance", "include/multiple_object_tracking/ctra_model.hpp: mahalanobis_distance"]}
{"id": "C84", "title": "Prediction treats speed, turn rate, acceleration and (away from the cut) heading exactly", "statement": "Predicting an object with positive definite covariance by any duration, forwards or backwards, with any parameters for which prediction succeeds: a CTRV object keeps speed, turn rate, their variances and covariance; a CTRA object gets speed v + a*dt, keeps turn rate and acceleration, and the covariances of these three change exactly as under that linear law - wherever the heading is. If all sigma points head into [0, 3.14159265359], or all into (3.14159265359, 2*pi), the predicted heading is yaw + rate*dt (in the second case up to 2e-12) and its variance and covariances are those of the linear law (exact real arithmetic).", "quantifier": "all objects, times and parameters", "why_tests_cant": "all matrices, durations and parameters", "anchors": ["include/multiple_object_tracking/unscented_kalman_filter.hpp: unscented_kalman_filter_predict", "include/multiple_object_tracking/unscented_transform.hpp: generate_sigma_points, compute_unscented_transform", "include/multiple_object_tracking/temporal_alignment.hpp: predict_to_time"]}
{"id": "C85", "title": "The Euclidean score as computed in float: symmetry, range, NaN, accuracy, monotonicity", "statement": "euclidean_distance, computed as in the code (double to float conversion of every coordinate, float subtraction, products, sums and square root): it is symmetric for all inputs; it is NaN, +infinity or a number from 0 to the largest float; it is NaN exactly if a coordinate is NaN in one of the poses, or outside the range of float with the same sign in both; if all coordinates are at most M in magnitude (1 <= M <= 2^60) it is finite and differs from the exact distance d by at most M/2^22 + d/2^21, so a score of 0 means a distance of at most M/2^21; poses that agree as floats have score 0 (positions 0.25 m apart at 5000 km do); moving a pose away coordinate by coordinate never lowers the score.", "quantifier": "all pairs of poses, including NaN, infinities and values that overflow float; for the accuracy all M", "why_tests_cant": "rounding happens at ten places; tests compare a few distances with a tolerance", "anchors": ["include/multiple_object_tracking/ctrv_model.hpp: euclidean_distance", "include/multiple_object_tracking/ctra_model.hpp: euclidean_distance"]}
{"id": "C86", "title": "Association with computed Euclidean scores: exactly when it is undefined", "statement": "gnn_associator applied to the Euclidean scores of any tracks and detections, with the scores computed in float: it either succeeds or has undefined behaviour; undefined exactly if there is no scored pair, or a score is NaN or infinite, or every scored track is scored with every scored detection and all scores are 0. With all coordinates at most M in magnitude (1 <= M <= 2^60) and one track and detection of the same kind more than M/2^21 apart it succeeds; a single infinite or NaN coordinate in one of two objects of the same kind is enough to make it undefined; one track and one detection 0.25 m apart at 5000 km from the origin are undefined behaviour.", "quantifier": "all lists of tracks and detections, all poses, every solver that returns a permutation", "why_tests_cant": "the undefined cases depend on rounding and on the whole set of scores", "anchors": ["include/multiple_object_tracking/scoring.hpp: score_tracks_and_detections, euclidean_distance_score", "include/multiple_object_tracking/track_matching.hpp: gnn_associator, cost_matrix_from_score_matrix", "include/multiple_object_tracking/ctrv_model.hpp: euclidean_distance", "include/multiple_object_tracking/ctra_model.hpp: euclidean_distance"]}
{"id": "C87", "title": "Rounding to decimal places as computed: idempotent, accurate, monotone in float; not always idempotent in double", "statement": "round_to_decimal_place with the IEEE operations of the code and d <= 22 decimal places (std::pow(10, d) is then exact): for every finite float the float overload returns a finite float, is idempotent, monotone and odd, and changes the number by at most (1/2 + 2^-20) 10^-d + |x|/2^23; the computation in double (states, process noise) is idempotent and accurate for |x| 10^d <= 2^51 - 1, and not idempotent in general (35762506278073.336 -> .34 -> .35 with d = 2); NaN stays NaN, infinities stay, and from d = 309 on every result is NaN.", "quantifier": "all finite floats, all doubles in the stated range, all d <= 22 (all d for NaN)", "why_tests_cant": "a test checks a few numbers; idempotence depends on three roundings and the exceptions are rare", "anchors": ["include/multiple_object_tracking/utils.hpp: round_to_decimal_place", "include/multiple_object_tracking/ctrv_model.hpp: utils::round_to_decimal_place", "include/multiple_object_tracking/ctra_model.hpp: utils::round_to_decimal_place"]}
{"id": "C88", "title": "Reading a heading as computed", "statement": "get_angle, given that std::arg returns a double p in [-pi, pi]: the result is in [0, 2 pi) with the real pi, equals p for p >= 0 and is at least the double pi and within 2^-50 of p + 2 pi for p < 0; it is the double 2 pi instead of 0 exactly for p in [-2^-51, 0); the order of phases of the same sign is kept and negative phases come after the others; NaN stays NaN. Consequence: poses at the same place with phases 0 and -2^-60 have a Euclidean score of 6.2831855, above 2 pi.", "quantifier": "all phases in [-pi, pi]", "why_tests_cant": "the wrap-around region is tiny", "anchors": ["include/multiple_object_tracking/angle.hpp: get_angle", "src/ctrv_model.cpp: euclidean_distance"]}
{"id": "C89", "title": "CTRV prediction as computed: accuracy, and objects that do not move", "statement": "get_next_state for a CTRV state with all operations rounded to double, for a library whose sine and cosine are accurate to 2^-52: in a turn the computed position is within |x|/2^53 + |v/w|/2^48 + 3|v dt|/2^53 + 2^-194 of the exact one (x coordinate, v speed, w yaw rate, |w dt| <= 2^19), without turning within |x|/2^53 + 7|v dt|/2^53 + 2^-97. The term with the turning radius is real: if yaw rate times time is at most 2^-57 of the heading, the predicted position is the old one whatever the speed, although exactly the object moves by at least 0.999 |v dt|; if in addition v/w overflows it is NaN. For instance at 30 m/s, heading 1 rad, yaw rate 2^-57 rad/s the object is predicted not to move in one second, with yaw rate 2^-1022 at (NaN, NaN). With a time step of 0 the position is kept unless v/w overflows.", "quantifier": "all finite double states and time steps in the stated ranges, all libraries meeting the accuracy bound (none is needed for the statements on objects that stay)", "why_tests_cant": "concerns all magnitudes of yaw rate; tests use a few ordinary ones", "anchors": ["src/ctrv_model.cpp: get_next_state", "include/multiple_object_tracking/angle.hpp: get_angle"]}
{"id": "C90", "title": "CTRA prediction as computed: accuracy, and where it breaks down", "statement": "get_next_state for a CTRA state with all operations rounded to double: for yaw rates w from 2^-1022 to 2^-512 rad/s the predicted position is never a finite number, whatever state, time step and library; for 2^-60 <= |w| <= 2^20 and a library with accurate sine, cosine and std::arg the position is within |x|/2^53 + (178 + 2|w dt|)/2^53 * (|v w| + |a dt w| + |a| + 2^-100)/w^2 of the exact one; without turning within |x|/2^53 + 16/2^53 (|v dt| + |a dt^2| + 2^-100). The factor 1/w^2 is real: with heading pi/4, speed 30 m/s, acceleration 11863283/2^23 m/s^2 and yaw rate 2^-30 rad/s a prediction by 0 seconds moves the object by 128 m. The heading of both models is accurate to (64 + |w dt|)/2^53 in sine and cosine. Zero process noise leaves position, speed, yaw rate and acceleration of the prediction unchanged; linear noise n moves the computed position by n cos/sin(heading) dt^2/2 up to |x|/2^53 + 9/2^53 (|n dt^2| + 2^-98), changes the speed by n dt and (CTRA) the acceleration by n, angular noise k the yaw rate by k dt and the heading by k dt^2/2, with stated error bounds.", "quantifier": "all finite double states and time steps in the stated ranges, all libraries meeting the accuracy bounds (for the first statement all libraries)", "why_tests_cant": "cancellation depends on all magnitudes of the yaw rate; tests use a few ordinary ones", "anchors": ["src/ctra_model.cpp: get_next_state", "include/multiple_object_tracking/angle.hpp: get_angle, operator+="]}
{"id": "C91", "title": "Sigma-point weights as computed: small alpha makes them infinite", "statement": "generate_lambda and generate_weights with all operations rounded to float: if alpha^2 (n + kappa) is at most n/2^26 (alpha = 1e-4 with kappa = 0 or 3 - n, the lower end of the usual range, for both motion models), lambda is exactly -n, the divisor n + lambda is 0, the weights are -inf and +inf, and no entry of the predicted mean or covariance is a finite number, whatever the points and the order of summation; one such predicted track and a detection of the same kind make gnn_associator on Euclidean scores undefined. Otherwise the weights of the mean are finite and sum to 1 up to 4/2^24 (|lambda| + n)/|n + lambda|; this cancellation is real: for alpha = 0.001 they sum to 65/64 (CTRV) and 33/32 (CTRA), for alpha = 0.0005 to 19/16 and 9/8, so a mean of 1000 m is off by 15 m and more. The computed n + lambda differs from alpha^2 (n + kappa) by at most (5 |alpha^2 (n + kappa)| + n)/2^24 + 2^-79; with alpha = 1 and whole kappa lambda is kappa exactly. Weight and scale of the points always fit together: 2 w r^2 is 1 up to 5/2^24; and the weight of the state in the covariance is lambda/(n + lambda) + (1 - alpha^2 + beta) up to 5/2^24 of the magnitudes of its terms.", "quantifier": "all numbers of variables below 2^20, all float alpha, beta, kappa in the stated ranges, all matrices of points, all orders of summation", "why_tests_cant": "tests compute the weights for one alpha and compare to one value", "anchors": ["include/multiple_object_tracking/unscented_transform.hpp: generate_lambda, generate_weights, compute_unscented_transform"]}
{"id": "C92", "title": "Weighted mean and covariance as computed: accuracy, sign, missing symmetry", "statement": "compute_unscented_transform with all operations rounded to float and the sums taken in any order: for finite weights and N points every entry of the mean is finite and within 1.001 N/2^24 of the sum of the magnitudes of the terms (plus N/2^148) of the exact weighted sum, every entry of the covariance within 1.001 (N+3)/2^24 of it (plus N/2^78). With the computed weights, points of magnitude at most B have their mean within (2n+5)/2^24 (|lambda|+n)/|n+lambda| B + 2^-100 of the exact mean for that lambda. If |alpha| <= 1, beta >= 0 and lambda >= 0 no weight of the covariance and no computed variance is negative, even if points or means are infinite. The computed covariance need not be symmetric: for the default parameters and points that are small whole numbers the two off-diagonal entries differ.", "quantifier": "all finite weights and points in the stated ranges, all numbers of points up to 2^13, all orders and groupings of the sums", "why_tests_cant": "rounding errors depend on all magnitudes and on the order of summation; tests use one matrix and a tolerance", "anchors": ["include/multiple_object_tracking/unscented_transform.hpp: compute_unscented_transform, generate_weights"]}
{"id": "C93", "title": "The printed association report determines the associations", "statement": "print_association_map writes, for the tracks in ascending order of UUID, one record with the track and its detections; two maps with the same printed text are equal. This holds if no UUID contains a newline and no detection UUID a space, and for maps with one detection per track (all results of gnn_associator) if no UUID contains a newline. It is false in general: the detection 'a b' prints like the detections 'a' and 'b', and a UUID containing newlines can forge records.", "quantifier": "all association maps; for the associator all score maps and all solvers", "why_tests_cant": "tests never look at the text; ambiguity needs unusual UUIDs", "anchors": ["include/multiple_object_tracking/track_matching.hpp: print_association_map", "include/multiple_object_tracking/uuid.hpp: operator<<"]}
{"id": "C94", "title": "Prediction as computed: precision, accuracy and breakdown of the whole unscented transform", "statement": "UnscentedTransform applied to a CTRV or CTRA object, in IEEE arithmetic from end to end: (a) every finite position, speed, turn rate and acceleration of the predicted state is a float although states hold doubles, so coordinates of 4194304 m and more become multiples of half a metre and a prediction over zero time changes every coordinate that is not a float; (b) the predicted turn rate (and CTRV speed, CTRA acceleration) is that of the object and the predicted CTRA speed is v + a*T, up to (2n+7)/2^24 of their size times the condition number of the weights; with the default transform the condition number is 1; (c) if alpha^2 (n + beta) <= n/2^26 no position, speed, turn rate or acceleration of the predicted state is finite, and associating a track predicted with UnscentedTransform{1e-4, 2, 0} with a detection of the same kind has undefined behaviour.", "quantifier": "all states, Cholesky factors, durations, summation orders and mathematical libraries", "why_tests_cant": "tests use small coordinates, default parameters and tolerances", "anchors": ["include/multiple_object_tracking/temporal_alignment.hpp: UnscentedTransform::operator()", "include/multiple_object_tracking/unscented_kalman_filter.hpp: unscented_kalman_filter_predict", "include/multiple_object_tracking/unscented_transform.hpp: generate_sigma_points, compute_unscented_transform", "src/ctrv_model.cpp: from_eigen_vector, to_eigen_vector", "src/ctra_model.cpp: from_eigen_vector, to_eigen_vector"]}
{"id": "C95", "title": "The computed prediction is the exact unscented transform up to a stated error", "statement": "UnscentedTransform applied to a CTRV or CTRA object, in IEEE arithmetic: (a) the sigma points are state plus and minus the columns of spread times square root, each number rounded correctly to double, the heading in [0, 2 pi) and in the right direction up to 2^-47; (b) every number of the predicted state is the weighted mean of the exact (real-arithmetic) motion of the object and its sigma points, up to the condition number of the weights times ((2n+10)/2^24 of the size of the values plus twice the error of the motion model); (c) every entry of the predicted covariance is the weighted covariance of these exact motions up to an explicit bound of the same kind. (b) and (c) assume that the headings after the step are between -3.14 and 3.14 (after removing full turns).", "quantifier": "all finite states and square roots within stated sizes, all summation orders, all mathematical libraries of the stated accuracy", "why_tests_cant": "tests compare a few values with tolerances; no test bounds the error for all inputs", "anchors": ["include/multiple_object_tracking/temporal_alignment.hpp: UnscentedTransform::operator()", "include/multiple_object_tracking/unscented_kalman_filter.hpp: unscented_kalman_filter_predict", "include/multiple_object_tracking/unscented_transform.hpp: generate_sigma_points, compute_unscented_transform, generate_weights", "src/ctrv_model.cpp: next_state, operator+, operator-", "src/ctra_model.cpp: next_state, operator+, operator-"]}
{"id": "C96", "title": "By how much prediction turns the heading", "statement": "In exact real arithmetic, with N = alpha^2 (n + beta) >= n: UnscentedTransform{alpha, beta, kappa} predicts, for a CTRV or CTRA object, the heading yaw + yaw rate * duration turned away from 3.14159265359 by pi/N for every column of the covariance's Cholesky factor whose sigma points straddle 3.14159265359, up to 2e-12. Hence the predicted heading is right (up to 2e-12) exactly if no sigma point lies on the other side of 3.14159265359, and wrong by at least pi/N otherwise.", "quantifier": "all CTRV and CTRA objects with positive definite covariance, all durations, all parameters with N >= n, provided the sigma points head within three radians of the centre", "why_tests_cant": "tests predict one or two objects whose headings are far from pi", "anchors": ["include/multiple_object_tracking/temporal_alignment.hpp: UnscentedTransform::operator()", "include/multiple_object_tracking/unscented_kalman_filter.hpp: unscented_kalman_filter_predict", "include/multiple_object_tracking/unscented_transform.hpp: generate_sigma_points, compute_unscented_transform"]}
{"id": "C97", "title": "The Mahalanobis score as it is computed", "statement": "mahalanobis_distance in float arithmetic: (a) it uses only x, y and yaw and their block of the covariance, is symmetric in the two poses, and is NaN, +infinity or a number >= 0; a NaN coordinate gives NaN; (b) its square differs from the exact squared distance by at most 2^-19 times the cancellation in the determinant times the squared distance with all products counted as positive, for covariances of stated size, or the score is NaN and the exact squared distance is below that bound; for independent coordinates it is finite and differs from the exact distance D by at most D/2^19 + M/(2^22 sigma) + 2^-28; (c) a coordinate or heading known exactly (variance and covariances zero) makes every score NaN, for independent coordinates variances up to 2^-51 make every score non-finite and variances from 2^43 to 2^63 make every score 0, and there is a positive definite covariance for which the score of two poses one metre apart is NaN; (d) the associator on Mahalanobis scores is undefined exactly if there are no scores, or one is NaN or infinite, or every track is scored with every detection and all are 0; gating does not remove NaN.", "quantifier": "all covariances, poses and summation orders; accuracy for all within stated sizes", "why_tests_cant": "NaN from a singular or nearly singular covariance depends on the last bits; tests use well-conditioned matrices and compare with tolerances", "anchors": ["src/ctrv_model.cpp: mahalanobis_distance", "src/ctra_model.cpp: mahalanobis_distance", "include/multiple_object_tracking/scoring.hpp: MahalanobisDistanceScore", "include/multiple_object_tracking/track_matching.hpp: gnn_associator"]}
{"id": "C98", "title": "Fusing as it is computed", "statement": "covariance_intersection_visitor in float arithmetic: (a) the fused object has the track's UUID and class and the detection's timestamp, and every finite position, speed, yaw rate and acceleration of its state is a float, so coordinates of at least 4194304 m become multiples of half a metre; (b) one infinite or NaN number in either state or in either inverse covariance, or such a weight, leaves no finite position, speed, yaw rate or acceleration in the fused state; (c) with diagonal covariances the weight is NaN if all variances are from 2^-126 to 2^-25 (CTRV) or 2^-21 (CTRA), because a determinant overflows, and if all are from 2^31 (CTRV) or 2^26 (CTRA) to 2^126, because all determinants are rounded to 0; (d) prediction does not bring such a track back, and associating it by Euclidean score with a detection of its kind is undefined behaviour; (e) with diagonal covariances with variances from 2^-12 to 2^16 the computed weight is in [0,1] and within 40/2^24 of the exact one, the fused variances have relative errors of at most 2^-20 and the fused state is within M/2^19 of the exact one for that weight, where M (8 to 2^59) bounds both states and no heading is within 2^-20 of the cut; (f) fusing a track with an equal detection need not keep its state.", "quantifier": "all objects, covariances, summation orders and groupings of the products; (c) and (e) for all diagonal covariances within the stated sizes", "why_tests_cant": "overflow and underflow of determinants need variances that do not occur in test data; tests compare with tolerances", "anchors": ["include/multiple_object_tracking/fusing.hpp: compute_covariance_intersection", "include/multiple_object_tracking/fusing.hpp: generate_weight", "include/multiple_object_tracking/fusing.hpp: covariance_intersection_visitor", "include/multiple_object_tracking/unscented_kalman_filter.hpp: unscented_kalman_filter_predict", "include/multiple_object_tracking/track_matching.hpp: gnn_associator"]}
{"id": "C99", "title": "Clustering as it is computed", "statement": "cluster_detections and Cluster in double arithmetic: (a) every detection is in exactly one cluster, whatever the coordinates and the threshold are, NaN and infinities included; (b) the computed squared distance of readings below 2^99 has a relative error of at most 2^-49 (plus 2^-195), and the clusters are those of exact arithmetic, same order and same members, unless the squared distance of two detections is that close to the threshold; (c) a detection with a NaN or infinite coordinate is alone in its cluster for every threshold; (d) a NaN, negatively infinite or non-positive threshold makes every detection a cluster of its own, an infinite one puts all finite detections together; (e) after any history of k calls the centroid of n members with readings up to M differs from that of exact arithmetic by at most k^2 M/(n 2^51), hence for a returned cluster from the mean by n M/2^51; the heading sum is right modulo 2 pi up to (k+1)/2^47; (f) the centroid of two detections with the same heading between 3.2 and 6.2 rad has the opposite heading; (g) removing a detection need not restore the centroid of the others; (h) once a NaN or infinite coordinate has been added, that coordinate of the centroid is never finite again, not even after remove_detection or clear.", "quantifier": "all detections, thresholds, histories of calls, and functions std::pow and std::arg within the stated accuracy", "why_tests_cant": "special values and cancellation do not occur in test data, and tests compare with tolerances", "anchors": ["include/multiple_object_tracking/clustering.hpp: cluster_detections", "include/multiple_object_tracking/clustering.hpp: squared_euclidean_distance_fn", "include/multiple_object_tracking/clustering.hpp: Cluster", "include/multiple_object_tracking/angle.hpp: operator+="]}
{"id": "C100", "title": "A tracking period with temporal alignment", "statement": "A period of the documented pipeline predicts the detections and the tracks to the current time, scores, gates, associates and fuses the predicted objects, stores the fused tracks, updates the track lists and starts a tentative track for every detection without association. (a) After a completed period an associated track is the fusion of the predicted track with the predicted detection, a detection without association is the estimate of a new tentative track with count 1, and every other track keeps the estimate and the time it had before the prediction, with the counts, removals and promotions of C69; (b) the period completes exactly if the predictions, the association and the fusion succeed and no detection that starts a track has the UUID of a track that is still managed after the update of the track lists; if only that fails, std::logic_error is thrown; (c) with the library's propagator and covariance intersection a period with new detections never throws; (d) after any number of periods the time of a track is that of the last period in which it was associated or started, so predictions never go backwards in time if the times of the periods do not.", "quantifier": "all managers reached by any history, detections with different UUIDs, metrics, gates, permutation-returning solvers, propagators and fusion functions that keep UUID, class and motion model; any number of periods", "why_tests_cant": "tests exercise one component at a time; which estimate a track has after a sequence of periods depends on all of them", "anchors": ["include/multiple_object_tracking/temporal_alignment.hpp: predict_to_time", "include/multiple_object_tracking/track_management.hpp: update_track", "include/multiple_object_tracking/scoring.hpp: score_tracks_and_detections", "include/multiple_object_tracking/fusing.hpp: fuse_associations", "docs/multiple_object_tracking_overview.md: pipeline"]}
{"id": "C101", "title": "One NaN stops the pipeline", "statement": "In floating-point arithmetic, for CTRV and CTRA objects: (a) if x, y, speed, yaw rate or acceleration of an object is NaN, a coordinate of its position is NaN after any prediction; if one of them is NaN in the track or the detection, or the weight is NaN, all of them are NaN after fusing; (b) the Euclidean and the Mahalanobis score of two objects of the same kind are NaN if a coordinate of either is, and no threshold removes a NaN score; (c) so a period of the pipeline (C100) with a track and a detection of the same kind, one of them with a NaN, has undefined behaviour if the predictions succeed, whatever the solver, the parameters and the fusion, and nothing is stored; (d) if a period completes, no detection is of the kind of a track with a NaN; such a track, unless a detection with its UUID starts a new one, is not associated, keeps its state, and loses one count until it is removed; (e) a single fusion with weight NaN (C98: too small or too large variances) makes the next period with a detection of that kind undefined; there is such a run with all variances 2^-26.", "quantifier": "all objects, managers reached by any history, prediction parameters and durations, square roots of the covariances, summation orders, gates that do not remove NaN, solvers", "why_tests_cant": "a NaN is produced by input that no test contains; its effect appears in a later period and another component", "anchors": ["include/multiple_object_tracking/unscented_kalman_filter.hpp: unscented_kalman_filter_predict", "include/multiple_object_tracking/fusing.hpp: covariance_intersection_visitor", "include/multiple_object_tracking/scoring.hpp: score_tracks_and_detections", "include/multiple_object_tracking/gating.hpp: prune_track_and_detection_scores_if", "include/multiple_object_tracking/track_matching.hpp: gnn_associator", "src/ctrv_model.cpp: get_next_state", "src/ctra_model.cpp: get_next_state"]}
{"id": "C102", "title": "Objects that can be told apart keep their tracks", "statement": "Suppose every UUID stands for an object, no object has two detections in a period, and the scores tell the objects apart: either the gate leaves exactly the pairs that show the same object, or nothing is gated out, every track has a detection or every detection a track, and each score between different objects exceeds each score within an object by more than 22/10^8 of the largest score; in both cases the scores that remain are not negative, at most 10^31 with a gate and finite floats without, and one of them is positive (with a gate it is also enough that two objects are in both containers). Then (a) every optimal solver yields exactly the pairs that show the same object; (b) a period of the pipeline (C100) completes, and for each object the manager shows exactly what a tracker for that object alone would show, which sees only its detections: start with count 1, fuse and count up to the promotion threshold, count down when missed, remove at the removal threshold; the same holds for any number of periods; (c) an object that enters and is detected in each of k periods has one track, with the UUID of its first detection, count min(k, promotion threshold), confirmed exactly if k >= 2 and k is at least the threshold, provided the removal threshold is 0 or 1 and below the promotion threshold; an object no longer detected keeps its track until its count reaches the removal threshold; (d) for the Euclidean score as computed in float arithmetic the condition follows from distances: within an object at most e, between objects at least D, gate between them with a margin for rounding, and either two objects present in both containers or one whose track and detection differ by more than rounding; (e) limits: without gating, if some track has no detection and some detection no track, every solver associates a pair of different objects; and without the gap an optimal solver may exchange two objects whose scores differ in the right direction.", "quantifier": "all managers reached by any history, numbers of tracks and detections, metrics, gates, visitors and predictions that keep the object, optimal solvers, sequences of periods", "why_tests_cant": "tests use a few well separated objects and short runs; identity over arbitrary runs depends on scoring, gating, the assignment, fusing and the counters together", "anchors": ["include/multiple_object_tracking/track_matching.hpp: gnn_associator", "include/multiple_object_tracking/gating.hpp: prune_track_and_detection_scores_if", "include/multiple_object_tracking/scoring.hpp: score_tracks_and_detections", "include/multiple_object_tracking/fusing.hpp: fuse_associations", "include/multiple_object_tracking/track_management.hpp: FixedThresholdTrackManager", "docs/multiple_object_tracking_overview.md:22-65"]}
{"id": "C103", "title": "Time steps as computed", "statement": "In IEEE double arithmetic, propagating an object to a time hands the propagator the rounded difference of the two times and stamps the object with exactly the time asked for, keeping UUID and class. (a) For nonnegative times the step is a number, within 2^-53 of its size of the exact difference, 0 exactly for equal times, of the right sign, and exact if the times are within a factor of two of each other; it is a number only if both times are. (b) No drift: along any run of propagations whose consecutive times are within a factor of two, the first k durations handed to the propagator add up exactly to the time passed, for every k, and the object carries the last time. (c) For instants between 2004 and 2038 stored as the nearest double of seconds since 1970, the computed step is the exact difference of the stored times, within 2^-22 s of the time between the instants, and never negative for a later instant. (d) With sine and cosine accurate to 2^-52, the computed CTRV position at the later instant differs from the exact position after the exact duration by at most the error of C89 and the distance travelled in 2^-21 s (coordinates up to 2^200, turns up to 2^19 rad on radii up to 2^200, or straight motion at speeds up to 2^100). (e) If the time asked for or the time stamp is infinite or NaN, and sine and cosine of NaN and of infinities are NaN, neither coordinate of the position predicted by the unscented transform is a number, for both models and any covariance and parameters.", "quantifier": "all times, states, covariances, propagators and runs of propagations", "why_tests_cant": "needs exactness of a rounded operation for all pairs of times and a rounding argument over runs of any length; tests compare a few time stamps with a tolerance", "anchors": ["include/multiple_object_tracking/temporal_alignment.hpp: propagate_to_time (lines 81-87)", "include/multiple_object_tracking/temporal_alignment.hpp: default_unscented_transform / UnscentedTransform (lines 54-62)", "src/ctrv_model.cpp: next_state"]}
{"id": "C104", "title": "State comparison as computed", "statement": "operator== of CTRV and CTRA states in IEEE double arithmetic (documented as exact equality, added to support unordered containers): (a) quantities compare equal only if both are numbers; infinities and NaN compare equal to nothing, not even themselves; the comparison is symmetric and reflexive on numbers; (b) two numbers compare equal exactly if their difference is below 2^-1022, or 2^52 times their difference is below their sum rounded to nearest even, or the sum overflows; so relative differences up to 2^-52 compare equal and from 2^-51 on do not, except that numbers with an overflowing sum compare equal however different they are; (c) what compares equal as computed compares equal in exact arithmetic (C71) unless the sum overflows, but not conversely; (d) states (and augmented states) compare equal exactly if these components do and cosine and sine of the headings are identical and not NaN; a state compares equal to itself exactly if its components are numbers; (e) any two numbers are linked by finitely many steps between numbers that compare equal, and so are any two states with numbers as components and the same heading; hence every hash function that gives equal values to states that compare equal, as unordered containers need, gives one value to all such states.", "quantifier": "all doubles including infinities and NaN, all states, all hash functions", "why_tests_cant": "the tolerance, its ties and its overflow concern single values among 2^128 pairs; links between distant numbers have astronomically many steps; a statement about all hash functions cannot be tested", "anchors": ["include/multiple_object_tracking/ctrv_model.hpp: operator== (lines 139-143, 294-298)", "include/multiple_object_tracking/ctra_model.hpp: operator== (lines 146-151, 260-264)", "include/multiple_object_tracking/angle.hpp: operator== (lines 64-67)", "include/multiple_object_tracking/augmented_state.hpp: operator== (lines 62-83)"]}
{"id": "C105", "title": "Printed states and objects", "statement": "print_state, print_entity_visitor and print_container, written to a stream in its initial state: (a) the numeral written for a number has the value of the number rounded to six significant digits, halves to even (relative error at most 1/200000; exact for numbers with at most six decimal digits; order is kept); an exponent is used exactly if the rounded value is not 0 and below 0.0001 or not below a million; a fraction does not end with 0; two data print alike exactly if both are NaN, the same infinity, or numbers with the same rounding; (b) hence numbers of one decade near the same multiple of the unit of the sixth digit print alike: time stamps in seconds since 1970 that are two hours apart do; (c) two objects, with arbitrary UUIDs, print alike exactly if they have the same motion model and UUID and all their numbers (time, position, speed, heading, yaw rate, acceleration, covariance) print alike; states likewise; a covariance is printed as a table: lines of equal length, columns as wide as its longest number, one space between them, numbers flush right; (d) the semantic class is not printed; (e) if no UUID contains a newline, the report of a container determines number and order of the objects and what is printed of each; (f) a UUID with newlines can forge objects: for every two objects there is one whose report is that of the two.", "quantifier": "all doubles including infinities and NaN (signs of zero and NaN disregarded), all objects and containers, all texts the units library may write after a number that begin with a space and contain no newline", "why_tests_cant": "the claims are about all pairs of objects and all UUIDs; that two reports differ whenever they should cannot be sampled, and ties and carries of the rounding concern single values", "anchors": ["src/ctrv_model.cpp: print_state (lines 83-91)", "src/ctra_model.cpp: print_state (lines 92-101)", "include/multiple_object_tracking/utils.hpp: print_entity_visitor, print_container (lines 77-99)", "include/multiple_object_tracking/uuid.hpp: operator<< (lines 49-52)"]}
{"id": "C106", "title": "Repeated fusing", "statement": "In exact real arithmetic, fusing detections to a track one after another, all covariances positive definite: (a) it can be done any number of times and the result is determined; (b) if the detections have the same covariance, whatever their states and times, each fusing brings the inverse covariance of the track nearer to that of the detections by a factor of at most 1 - det(R^-1) / (2 det(P^-1 + 2 R^-1)), on the segment between the two; the covariance of the track converges to that of the detections, the weight to one half; (c) a track less certain than the detections never becomes more certain than one of them, however many are fused, and a track more certain than they are never gains certainty, and stays at least as certain as they are; (d) if the same mean and covariance are fused again and again and headings stay at or below the cut, the mean converges to it; (e) if the same state and covariance are fused again and again and the headings are uncorrelated with the rest, position, speed, yaw rate and acceleration converge to those of the detection whatever the headings; (f) under the assumptions of (e) the heading converges to that of the detection if the latter is at most 3.14159265359 (and not within 10^-11 of 0), and to that of the detection minus 4 (3.14159265359 - pi) if it is above (not within 10^-11 of either end); it is finally within 2 10^-11 of that of the detection as a direction, unless that is less than 10^-11 above 3.14159265359.", "quantifier": "all tracks and infinite sequences of detections with positive definite covariances, all dimensions, exact real arithmetic", "why_tests_cant": "a statement about limits of infinite sequences cannot be tested, and the tests fuse one detection once", "anchors": ["include/multiple_object_tracking/fusing.hpp: compute_covariance_intersection, generate_weight (lines 50-102)", "include/multiple_object_tracking/fusing.hpp: covariance_intersection_visitor (lines 115-136)"]}
{"id": "C107", "title": "Fusing at most doubles uncertainty", "statement": "In exact real arithmetic, for positive definite covariances: a fused track is at most twice as uncertain, in every direction of the state space, as the track was before, and at most twice as uncertain as the detection; so every variance is at most twice the smaller of the two. This holds for every track that fuse_associations returns, so a track that is fused is never left with more than twice the uncertainty of its detection, however uncertain its prediction was. The factor 2 cannot be improved, for either motion model.", "quantifier": "all positive definite covariances, association maps and containers, exact real arithmetic", "why_tests_cant": "the bound holds for all pairs of matrices and is only approached in the limit of ever more elongated ellipsoids", "anchors": ["include/multiple_object_tracking/fusing.hpp: compute_covariance_intersection, generate_weight (lines 50-102)", "include/multiple_object_tracking/fusing.hpp: covariance_intersection_visitor (lines 115-136)", "include/multiple_object_tracking/fusing.hpp: fuse_associations (lines 151-181)"]}
{"id": "C108", "title": "The truth is not lost by fusing", "statement": "In exact real arithmetic, for positive definite covariances: if a point of the state space is within a given number of standard deviations (Mahalanobis distance) of the track and of the detection, it is within the same number of standard deviations of the fused track, however the errors of the two are related; the squared distance from the fused track is at most the weighted mean of the squared distances. Headings are taken after the rotation that fusing applies, that of the result up to full turns. The same for any sequence of detections of a point that does not change, if headings stay at or below the cut.", "quantifier": "all points, states, positive definite covariances, weights and sequences of detections, exact real arithmetic", "why_tests_cant": "a statement about all points of an ellipsoid and all pairs of estimates", "anchors": ["include/multiple_object_tracking/fusing.hpp: compute_covariance_intersection, generate_weight (lines 50-102)", "include/multiple_object_tracking/fusing.hpp: covariance_intersection_visitor (lines 115-136)"]}
{"id": "C109", "title": "Where the fused state lies", "statement": "In exact real arithmetic, for positive definite covariances: the fused state is the one point that minimises the weighted sum of the squared distances, in standard deviations, to the track and to the detection (headings after the rotation that fusing applies, that of the result up to full turns). It is no further from the detection than the track was, in standard deviations of the detection, and no further from the track than the detection was, in those of the track; strictly nearer if they differ. A variable other than the heading that neither covariance correlates with another lies between the two values, divided in the ratio of the weighted variances. But correlated variables need not lie between: for every K there are a track and a detection that differ only by 1 m in x whose fused y is off by more than K, and a track and a detection at the same place with headings 3.1 and 3.2 whose fused x is off by more than K.", "quantifier": "all states, positive definite covariances, weights, variables and bounds K, exact real arithmetic", "why_tests_cant": "minimality is a statement about all points of the state space; the overshoot has no largest example", "anchors": ["include/multiple_object_tracking/fusing.hpp: compute_covariance_intersection, generate_weight (lines 50-102)", "include/multiple_object_tracking/fusing.hpp: covariance_intersection_visitor (lines 115-136)"]}
{"id": "C110", "title": "The uncertainty of all tracks stays bounded", "statement": "In exact real arithmetic, for any sequence of completed periods (predict, associate, fuse, update, start new tracks): if predicting preserves that covariances are positive semidefinite, the covariances of the detections predicted to the time of their period are positive semidefinite and at most R in every direction of the state space (one R per motion model), and those of the tracks at the start at most 2R, then the covariance of every track is at most 2R, however many periods there were, however long tracks were predicted and however detections were associated. With the library's default unscented propagator and no tracks at the start only the bound on the predicted detections is needed; whatever the covariances of the detections before the prediction were and whatever the Cholesky factor returned.", "quantifier": "all managers reached by any history, sequences of fewer than 2^64 - 3 periods (C100; detections of one period have different UUIDs), metrics, gates, permutation-returning solvers and bounds R, exact real arithmetic", "why_tests_cant": "an invariant of executions of any length", "anchors": ["include/multiple_object_tracking/fusing.hpp: covariance_intersection_visitor, fuse_associations (lines 115-181)", "include/multiple_object_tracking/temporal_alignment.hpp: predict_to_time, propagate_to_time (lines 60-132)", "include/multiple_object_tracking/track_management.hpp: FixedThresholdTrackManager (lines 51-207)"]}
{"id": "C111", "title": "Arithmetic of angles and states as computed", "statement": "In double arithmetic, for CTRV and CTRA states, process noise and augmented states: (a) every number other than the heading of a sum or difference is the sum or difference of the two numbers up to one rounding: it is infinite exactly if the exact value is too large for a double (at least (2^54-1)*2^970), otherwise off by at most 2^-53 of it, and exact if that is a double; NaN and infinities in one number do not touch the others; (b) + is commutative, bit for bit; s - s is 0 in every finite number and its heading is made from 0; (c) (s + t) - t restores a number x up to (2|x+y|+|x|)/2^53 and exactly if x+y is a double; it need not restore it (1 + 2^53 - 2^53 is 0), so the law of C54 holds only up to rounding; (d) if the library reads angles accurately (C89), the heading of s +- t is read in [0, 2 pi) and is the sum or difference of the two headings modulo full turns up to 63*2^-53, and (s + t) - t restores it up to 126*2^-53; (e) a CTRV state times a float k has its numbers multiplied up to one rounding and its heading k times the heading that was read, modulo full turns, up to (49+|k a|)/2^53; likewise products and quotients of angles; an angle divided by 0, or by so small a number that the quotient overflows, takes sine and cosine of NaN or infinity, and divided by an infinity those of a zero; (f) from_eigen_vector keeps every float entry exactly and in place (state first, the two noises last), to_eigen_vector rounds to float, and a number survives to_eigen_vector and from_eigen_vector exactly if it was a float.", "quantifier": "all states, noises, augmented states, vectors and factors; any library for (a)-(c), (f); products within 2^250 in (e), numbers within 2^127 in (f)", "why_tests_cant": "tests add a few small integers, for which nothing is rounded", "anchors": ["include/multiple_object_tracking/angle.hpp: operator+=, operator-=, operator*=, operator/= (lines 70-124)", "include/multiple_object_tracking/ctrv_model.hpp: CtrvState::from_eigen_vector, to_eigen_vector, operator+=, operator-=, operator*= (lines 59-215), CtrvProcessNoise (lines 225-328)", "include/multiple_object_tracking/ctra_model.hpp: CtraState, CtraProcessNoise (lines 41-294)", "include/multiple_object_tracking/augmented_state.hpp: AugmentedState, operators (lines 36-169)"]}
{"id": "C112", "title": "Results do not depend on the origin and the unit of time", "statement": "Origin: adding a constant to all timestamps and to all times that objects are predicted to adds it to the timestamps of all predicted, fused and clustered objects and of all tracks and changes nothing else: predict_to_time with any propagator, scores and association (which do not read timestamps at all), covariance_intersection_visitor, cluster_detections, a whole period (predict, associate, fuse, update, start tracks) and every sequence of periods, including how they end and the association maps. Unit: expressing times, speeds, yaw rates, accelerations, noise and covariances in another unit of time (k new units are one old unit) commutes with get_next_state with and without noise for every k other than 0, with fusion and a tracking cycle, and, for k > 0 and positive definite covariances, with unscented prediction and a whole period, and leaves scores and association unchanged; the only condition is that no yaw rate that is used (the state's, and for unscented prediction those of the sigma points) is smaller than the smallest normal double in exactly one of the units. Without the condition it is false (an object is moved straight in one unit and back to its x coordinate in the other), and clusters do depend on the unit of time, because their default distance adds squared speeds and lengths. (exact real arithmetic, scores followed by any rounding)", "quantifier": "all constants, factors, objects, manager states, histories, parameters, solvers and gates", "why_tests_cant": "relates two runs over all inputs and all histories", "anchors": ["src/ctrv_model.cpp: get_next_state", "src/ctra_model.cpp: get_next_state", "include/multiple_object_tracking/unscented_kalman_filter.hpp", "include/multiple_object_tracking/fusing.hpp", "include/multiple_object_tracking/scoring.hpp", "include/multiple_object_tracking/clustering.hpp", "include/multiple_object_tracking/temporal_alignment.hpp: propagate_to_time, predict_to_time"]}
{"id": "C113", "title": "Prediction moves an object by at most duration times root mean square speed", "statement": "If no weight of the unscented transform is negative (n <= alpha^2 (n + beta), in particular for default_unscented_transform), predict_to_time moves the position of a CTRV object with positive definite covariance by at most |dt| sqrt(v^2 + var v), and of a CTRA object by at most |dt| sqrt(v^2 + var v) + dt^2/2 sqrt(a^2 + var a), whatever the heading, the yaw rate and the correlations. With a negative centre weight this fails: UnscentedTransform{1/sqrt 7, 2, kappa} predicts an object at 7 m/s with speed variance 1 one second ahead 28 m behind its position (exact real arithmetic).", "quantifier": "all states, positive definite covariances, durations and admissible parameters, both motion models", "why_tests_cant": "The bound must hold for all headings, correlations and durations; tests predict a few objects with nearly diagonal covariances.", "anchors": ["include/multiple_object_tracking/temporal_alignment.hpp: predict_to_time, default_unscented_transform", "include/multiple_object_tracking/unscented_kalman_filter.hpp: unscented_kalman_filter_predict", "include/multiple_object_tracking/unscented_transform.hpp: generate_sigma_points, generate_weights, compute_unscented_transform", "src/ctrv_model.cpp: get_next_state", "src/ctra_model.cpp: get_next_state"]}
{"id": "C114", "title": "Predicting in two steps or in one", "statement": "Predicting to t1 and then to t2 with the unscented transform gives the same timestamp, speed, yaw rate, acceleration and covariances of these as predicting to t2 at once, for every object with positive definite covariance whose covariance at t1 is positive definite, for all parameters and times; also the same heading and heading covariances if the headings of the sigma points at t1 and at t2 stay between 0 and the cut. Positions differ: an object driving along the y axis at 1 m/s with uncertain heading, predicted with default_unscented_transform by one second twice, is behind the same object predicted by two seconds at once (exact real arithmetic).", "quantifier": "all objects, parameters and times; witness for positions", "why_tests_cant": "A test compares two results for chosen numbers; the equality holds for all, and the failure needs a chosen covariance.", "anchors": ["include/multiple_object_tracking/temporal_alignment.hpp: predict_to_time, default_unscented_transform", "include/multiple_object_tracking/unscented_kalman_filter.hpp: unscented_kalman_filter_predict", "src/ctrv_model.cpp: get_next_state", "src/ctra_model.cpp: get_next_state"]}
{"id": "C115", "title": "Prediction need not keep a covariance positive definite", "statement": "A standing CTRV object with positive definite covariance, predicted by one second with default_unscented_transform, can have the x variance 0; then the Mahalanobis distances from it and its fusion with every object are undefined (the code inverts a singular matrix without a check). A diagonal covariance whose heading deviation times sqrt 7 is a whole turn gets the heading variance 0 when predicted by no time. From diagonal covariances the prediction is positive definite for every state and duration if sin(sqrt(n + 2) sigma) is not 0, sigma being the standard deviation of the heading, in particular if sigma is at most 1 (exact real arithmetic).", "quantifier": "all states, diagonal covariances and durations of both motion models; witnesses for the failures", "why_tests_cant": "Random or typical covariances never hit the singular case, and positive definiteness for all diagonal covariances is beyond sampling.", "anchors": ["include/multiple_object_tracking/temporal_alignment.hpp: predict_to_time, default_unscented_transform", "include/multiple_object_tracking/fusing.hpp: covariance_intersection_visitor", "include/multiple_object_tracking/ctrv_model.hpp: mahalanobis_distance", "src/ctrv_model.cpp: get_next_state", "src/ctra_model.cpp: get_next_state"]}
{"id": "C116", "title": "The assignment procedure behind gnn_associator finds an optimal assignment", "statement": "The Kuhn-Munkres procedure of dlib::max_cost_assignment (labels, slacks, augmenting paths) ends, each of its while loops within n passes, and returns a permutation with the largest total: for every square matrix in exact arithmetic, and in int with overflow undefined for every matrix of any size whose rows have entries from 0 to 2^30 - 1 or are constant INT_MIN. So it meets the contract that the other theorems about gnn_associator assume of the solver. (The procedure is modelled from knowledge of dlib 19; dlib is not in the repository.)", "quantifier": "all square integer matrices of every size", "why_tests_cant": "Optimality compares with all n! assignments, and termination and the absence of overflow are about all matrices.", "anchors": ["include/multiple_object_tracking/track_matching.hpp:234-257", "dependencies.cmake:16"]}
{"id": "C117", "title": "gnn_associator runs without integer overflow in the solver", "statement": "With the procedure of dlib::max_cost_assignment computing in int, gnn_associator never overflows. (FALSE: for every map of finite nonnegative scores, one of them positive or a pair missing, with more tracks than detections, the padding columns of INT_MIN make the first slack of the first row overflow, which is undefined behaviour. What holds: with no more tracks than detections it runs without overflow and returns what it returns with an optimal solver.)", "quantifier": "all score maps with finite nonnegative scores", "why_tests_cant": "The repository's tests have such scenes, but signed overflow is silent: the result may look right.", "anchors": ["include/multiple_object_tracking/track_matching.hpp:234-257", "include/multiple_object_tracking/detail/dlib_extensions.hpp:18-48"]}
{"id": "C118", "title": "Where int wraps around, gnn_associator still returns a best association", "statement": "With the procedure of dlib::max_cost_assignment computing in int with wraparound, gnn_associator returns an association with the largest total cost value, i.e. the best scores. (FALSE: with detections at 0 and 10 on a line and tracks at 1, 2 and 100, scored by distance, it pairs the track at 100 with the detection at 10 and leaves the track at 2 alone: total distance 91 instead of 9. What holds: with no more tracks than detections wraparound does not matter.)", "quantifier": "all score maps with finite nonnegative scores", "why_tests_cant": "The failure needs more tracks than detections of which two compete for one detection; a wrong but plausible pairing passes unnoticed.", "anchors": ["include/multiple_object_tracking/track_matching.hpp:234-257", "include/multiple_object_tracking/detail/dlib_extensions.hpp:18-48"]}
{"id": "C119", "title": "The number of tracks stays bounded, logarithmically in the promotion threshold", "statement": "Start with a new manager with thresholds P and R, and let every round call update_track_lists once and associate or add at most D tracks in total (in the pipeline: at most D detections per period). Then after any number of rounds fewer than D (ceil(log2(max(P, 1) - R)) + 2) tracks have counts above R, and there are at most D others, none of them if R = 0. With D = 1 the bound is floor(log2(max(P, 1) - R)) + 1, and for R = 0 and P from 1 to 2^62 - 1 that many tracks can be reached. So with at most 2^28 detections per period the number of pairs of tracks and detections always fits into size_t.", "quantifier": "all histories of rounds and periods of any length (below 2^64), all thresholds, all association maps", "why_tests_cant": "The bound is about arbitrarily long histories; the worst case needs an adversarial order of associations.", "anchors": ["include/multiple_object_tracking/track_management.hpp:66-110", "include/multiple_object_tracking/track_matching.hpp:234-290"]}
{"id": "C120", "title": "Measurement errors make the association at most proportionally worse", "statement": "If every score differs from the true distance of its track and detection by at most e, the true distances of the association returned with an optimal solver total at most 2 e + 22 m / 10^8 per pair more than those of any other one-to-one choice of as many scored pairs (m bounds the scores of a complete score map). If one choice beats all others by more than that, it is the association, whatever optimal solver is used. The factor two is needed. With the Euclidean score computed in float and poses measured with errors up to e, coordinates up to M (from 1 to 2^60), no gating and all objects of one model, the loss is at most 4 e + M / 10^5 per pair.", "quantifier": "all complete score maps, distances, errors, optimal solvers; all poses", "why_tests_cant": "Needs all true positions compatible with the measurements and all competing associations.", "anchors": ["include/multiple_object_tracking/scoring.hpp: score_tracks_and_detections, euclidean_distance_score", "include/multiple_object_tracking/track_matching.hpp: gnn_associator, cost_matrix_from_score_matrix"]}
{"id": "C121", "title": "A covariance that is not positive definite is predicted with a wrong factor, silently", "statement": "Eigen's LLT, modelled column by column, returns the Cholesky factor of every positive definite matrix and reports success for no other symmetric matrix; the code never asks. It gives up in column k exactly if the upper left k x k block is positive definite and the next one is not; then columns before k are those of a factor and the rest is the lower triangle of the covariance itself, used as if it were a factor. The result is right only if the variable k is known exactly (zero row and column); for diagonal covariances exactly if all variances from the first zero on are 0 or 1. So if x is known exactly, predicting a CTRV object by any duration squares the variances of speed and turn rate of a diagonal covariance, and predicting an object to its own time changes its covariance. Only the lower triangle of a covariance is read. (exact real arithmetic)", "quantifier": "all symmetric matrices of all sizes; all CTRV and CTRA objects with such covariances, durations and parameters", "why_tests_cant": "Tests use positive definite covariances; nothing fails or warns for others.", "anchors": ["include/multiple_object_tracking/unscented_transform.hpp: generate_sigma_points", "include/multiple_object_tracking/temporal_alignment.hpp: propagate_to_time, predict_to_time"]}
{"id": "C122", "title": "The Cholesky factor as computed", "statement": "Eigen's LLT in IEEE single precision, sums in any order: (a) it always ends; (b) for a symmetric covariance of size up to 6 with variances between 2^-40 and 2^40 that exceeds 2^-16 times its own diagonal (for instance, one with correlations of at most 1/8) it succeeds, and the factor times its transpose is the covariance up to 2^-20 of the standard deviations involved; (c) positive definite is not enough: there is a positive definite covariance of floats for which it gives up in the second column, and the variances of the later variables are used as standard deviations; with first variance 1 it gives up in the second column whenever the second variance is at most the rounded square of the covariance; (d) whenever it gives up in column k, the numbers from column k on are those of the covariance; for a diagonal covariance the factor has the correctly rounded standard deviations before the first variance that is not positive and the variances from there on; (e) a NaN in row i of the lower triangle is not reported: unless it gives up before column i it reports success and all numbers from row and column i on are NaN; (f) only the lower triangle is read; (g) an infinite first variance hides the finite covariances with the first variable: the first column is infinite on the diagonal and zero below.", "quantifier": "all matrices of floats, infinities and NaN included, all orders of summation; (b) all sizes up to 6", "why_tests_cant": "Tests decompose one or two well conditioned matrices; where rounding turns a pivot negative cannot be found by sampling.", "anchors": ["include/multiple_object_tracking/unscented_transform.hpp: generate_sigma_points"]}
{"id": "C123", "title": "A NaN or an infinity in a covariance ruins the state at the next prediction", "statement": "CTRV and CTRA objects predicted in IEEE arithmetic with the Cholesky factor of C122: if a number in or below the diagonal of the covariance is NaN, x or y of the predicted state is NaN (even for an object at rest, and for any duration, parameters and summation order), the predicted covariance has a NaN in or below its diagonal again, and so no number of predictions brings the position back; nothing is reported. If a variance is infinite, a number of the predicted state is NaN, x or y unless it is the variance of speed or acceleration; after two predictions x or y is NaN in any case. A NaN above the diagonal is not seen by prediction. Hence a period in which a track and a detection of the same kind meet and one has a NaN there or an infinite variance other than of speed or acceleration is undefined behaviour (the association converts the NaN score), if the predictions succeed and the gate does not reject NaN.", "quantifier": "all objects, covariances, durations and parameters, infinities and NaN included; all summation orders; all mathematical libraries that answer NaN to NaN and infinities", "why_tests_cant": "tests use finite covariances", "anchors": ["include/multiple_object_tracking/unscented_transform.hpp: generate_sigma_points, compute_unscented_transform", "include/multiple_object_tracking/temporal_alignment.hpp: UnscentedTransform::operator(), predict_to_time", "include/multiple_object_tracking/track_matching.hpp: gnn_associator"]}
{"id": "C124", "title": "Which of two track managers keeps and confirms more", "statement": "Two new managers receive corresponding histories of calls. (a) If their promotion thresholds (as constructed and as set on the way) are never lower in the second and their removal thresholds never higher, and the calls are otherwise the same, the second manages every track that the first manages, with at least its occurrence count. (b) With equal promotion thresholds and only a lower removal threshold at construction it also confirms every track that the first confirms. (c) While the promotion threshold is not set, the same holds if the second is also told of more associations. (d) A higher promotion threshold never confirms sooner: a track added once that is confirmed under the higher threshold and managed under the lower is confirmed under the lower, whatever the removal thresholds. (e) Both restrictions are needed: a track added again after removal is tentative under the lower threshold and confirmed under the higher; and after the promotion threshold has been lowered an association can cost a track more than a miss, so that the track seen more often is the one that is removed.", "quantifier": "all pairs of histories of any length (below 2^64 - 2 updates), thresholds, tracks and hash map orders", "why_tests_cant": "Tests run one manager at a time; comparing two needs all pairs of histories.", "anchors": ["include/multiple_object_tracking/track_management.hpp: FixedThresholdTrackManager::update_track_lists, add_tentative_track, set_promotion_threshold_and_update, set_removal_threshold_and_update"]}
{"id": "C125", "title": "The computed sigma points carry the covariance, and the computed prediction keeps variances", "statement": "In IEEE-754 arithmetic (Cholesky factor, spread, weights, sigma points, prediction, mean and covariance all rounded), for a covariance of floats of at most six components with variances between 2^-40 and 2^40 that exceeds 2^-16 times its diagonal. (a) For n+Lambda between 2^-20 and 2^20 the offsets of the sigma points (spread times the factor that the decomposition computes, in any order of its sums) are finite, each at most sqrt(1.1(n+Lambda)) standard deviations, and their products, weighted with the computed weight or with the exact one, add up to each covariance to within 2^-18 of the product of the standard deviations. (b) So the computed sigma points of a CTRV and of a CTRA object are, up to rounding of the doubles, points around the state with that covariance. (c) With default_unscented_transform, a CTRV prediction of any duration (also NaN) returns the variances and the covariance of speed and turn rate unchanged up to keptErr = (sigma S' + sigma' S)/2^14 + S S'/2^36 + 2^-50, where sigma, S are standard deviation and size (|value| + 3 sigma) of the two quantities. (d) A CTRA prediction of duration T likewise returns the covariances of v + aT, turn rate and acceleration.", "quantifier": "all covariances, states, durations and orders of summation within the stated ranges", "why_tests_cant": "a test compares one prediction with a tolerance; the bound holds for every covariance and every order of the sums that the compiler may choose", "anchors": ["include/multiple_object_tracking/unscented_transform.hpp: generate_sigma_points, generate_weights", "include/multiple_object_tracking/unscented_kalman_filter.hpp: unscented_kalman_filter_predict", "include/multiple_object_tracking/temporal_alignment.hpp: UnscentedTransform, default_unscented_transform"]}
{"id": "C126", "title": "Small errors of a state make small errors of its prediction", "statement": "Let two states differ in position by d, in speed by e, in heading by delta (in either direction, across heading 0 or not), in yaw rate by f and, for CTRA, in acceleration by g. After get_next_state by t their positions differ by at most d + |t| e + |v| |t| |delta| + |v| t^2/2 f for CTRV, and by at most d + |t| e + t^2/2 g + (|v||t| + |a|t^2/2)|delta| + (|v|t^2/2 + |a||t|^3/3) f for CTRA; headings differ by delta + t times the difference of the yaw rates, speeds by at most e + |t| g. If a yaw rate is not 0 but below the smallest normal double, 2^-1021 is added to f. The coefficients of position, speed, heading and yaw rate in the CTRV bound cannot be lowered. predict_to_time, with any parameters for which it succeeds, places an object with positive definite covariance within sqrt(n/(n+Lambda)) times the same sum with standard deviations for the differences of where get_next_state places its state; so with default_unscented_transform the predicted position of a CTRV track and that of an object that really moves with constant speed and yaw rate differ by at most d + |t|(e + s sd v) + |v||t|(|delta| + s sd yaw) + |v|t^2/2 (f + s sd yaw rate + 2^-1020), s = sqrt(5/7) (exact real arithmetic).", "quantifier": "all pairs of states, all durations of either sign, all parameters and positive definite covariances", "why_tests_cant": "a test perturbs a state by one amount and looks at one duration; a bound for all perturbations, across the turn of the heading and across the switch between straight and turning motion, needs a proof", "anchors": ["src/ctrv_model.cpp: get_next_state", "src/ctra_model.cpp: get_next_state", "include/multiple_object_tracking/unscented_kalman_filter.hpp: unscented_kalman_filter_predict", "include/multiple_object_tracking/temporal_alignment.hpp: predict_to_time, default_unscented_transform"]}
{"id": "C127", "title": "How fast the uncertainty of a position grows under prediction", "statement": "Let sd pos be the square root of the sum of the variances of x and y. predict_to_time by t, with any parameters for which it succeeds, changes sd pos of an object with positive definite covariance, up or down, by at most |t| sd v + |v||t| sd yaw + |v|t^2/2 (sd yaw rate + 2^-1021 sqrt(5/(n+Lambda))) for CTRV, and by at most |t| sd v + t^2/2 sd a + (|v||t| + |a|t^2/2) sd yaw + (|v|t^2/2 + |a||t|^3/3)(sd yaw rate + 2^-1021 sqrt(6/(n+Lambda))) for CTRA, whatever the correlations and wherever the headings are, plus sqrt|kappa - alpha^2| times the distance d of the predicted position from that of get_next_state (upwards only if kappa > alpha^2, downwards only if kappa < alpha^2; kappa is the last member of UnscentedTransform, which the code passes on as beta). With default_unscented_transform this term is 0 and the prediction exists. Exactly: another kappa leaves the predicted position and adds the difference of the kappas times d^2 to the sum of the variances (exact real arithmetic).", "quantifier": "all states, positive definite covariances, durations of either sign and parameters", "why_tests_cant": "a test sees one prediction; a bound on the growth for all covariances with all correlations, across the turn of the heading, needs a proof", "anchors": ["include/multiple_object_tracking/unscented_kalman_filter.hpp: unscented_kalman_filter_predict", "include/multiple_object_tracking/unscented_transform.hpp: compute_unscented_transform, generate_weights", "include/multiple_object_tracking/temporal_alignment.hpp: UnscentedTransform, predict_to_time, default_unscented_transform"]}
{"id": "C128", "title": "When a period as computed goes wrong, and when it does not", "statement": "Scoring, gating and associating objects with distinct UUIDs never throws and has undefined behaviour exactly if every pair is gated out or cannot be scored, or some pair that is not gated out has an infinite score or NaN, or every track and every detection that occur in pairs left are at score 0 and not gated out. A whole period (predict, score, gate, associate, fuse, update, add) with detections of new distinct UUIDs, whose objects are predicted successfully, either completes or is undefined, and is undefined exactly in these cases or if the association pairs a track and a detection of different kinds. With objects of one kind only the pairs matter. With euclidean_distance_score and predicted poses that are finite and at most 2^60 the case of infinite scores cannot occur, and a period of objects of one kind completes as soon as one pair that is not gated out has a score other than 0. Scores, gate and prediction are IEEE values; metrics are assumed to give finite scores between 0 and the largest float, which is proved for the Euclidean one.", "quantifier": "all reachable managers, all lists of objects, metrics, gates and solvers that return a permutation", "why_tests_cant": "the failing inputs are corner cases (nothing left after gating, all distances zero, overflow), and that there are no others cannot be seen from runs that succeed", "anchors": ["include/multiple_object_tracking/scoring.hpp: score_tracks_and_detections", "include/multiple_object_tracking/gating.hpp: prune_track_and_detection_scores_if", "include/multiple_object_tracking/track_matching.hpp: gnn_associator", "include/multiple_object_tracking/fusing.hpp: fuse_associations", "include/multiple_object_tracking/track_management.hpp: update_track_lists"]}
{"id": "C129", "title": "The prediction of an ordinary object is finite", "statement": "Take an object of ordinary size: coordinates within 2^22, heading from 0 to 2 pi, speed, turn rate and acceleration at most 2^8, covariance matrix symmetric with variances between 2^-40 and 2^16 and positive definite with a margin of 2^-16 of the variances. Predict it over at most 64 s with default_unscented_transform, everything computed in IEEE double and float: Eigen's unblocked Cholesky factorization, sigma points, motion model, weighted sums in any order of summation. If the turn rate of the object and of each of its sigma points is 0 or at least 2^-60 (CTRV) or 2^-14 (CTRA) in size, then every number of the prediction is finite, covariance matrix included, the coordinates are at most 2^28 and the heading is read as a number from 0 to 2 pi. So a whole period of such objects with euclidean_distance_score is undefined exactly if every pair is gated out, or all pairs left are at score 0 and form a full rectangle, or objects of different kinds are paired, and it completes if all objects are of one kind and some pair left has a score other than 0. The trigonometric functions and the phase of the library are assumed accurate.", "quantifier": "all states and covariances of the given size, durations of either sign up to 64 s, all results that the order of summation allows", "why_tests_cant": "NaN and infinity appear at sigma points that no test computes; that they cannot appear for a whole range of inputs needs a proof", "anchors": ["include/multiple_object_tracking/temporal_alignment.hpp: UnscentedTransform, predict_to_time", "include/multiple_object_tracking/unscented_kalman_filter.hpp: unscented_kalman_filter_predict", "include/multiple_object_tracking/unscented_transform.hpp: generate_sigma_points, compute_unscented_transform", "include/multiple_object_tracking/scoring.hpp: score_tracks_and_detections", "include/multiple_object_tracking/track_matching.hpp: gnn_associator"]}
{"id": "C130", "title": "Prediction keeps the truth in speed, heading, turn rate and acceleration, and can lose it in position", "statement": "In exact real arithmetic. Suppose the true state of an object differs from the estimated one by at most k standard deviations of its (positive definite) covariance in every direction of the state space, and both the object is predicted with an unscented transform and the truth moves by the motion model. (a) For all parameters the moved truth is within k standard deviations of the prediction in every direction of speed and turn rate (CTRV) or speed, turn rate and acceleration (CTRA). (b) If no sigma point leaves the headings from 0 to 3.14159265359, the same holds with the heading, compared up to full turns. (c) It fails in position: for every k, speed and duration up to 10^6 s there are an object (CTRV or CTRA) with uncorrelated uncertainties and a truth one standard deviation away (in turn rate alone) such that default_unscented_transform predicts a positive definite covariance and the moved truth is more than k standard deviations from the predicted x coordinate. (d) However small the uncertainty of the heading (up to pi / sqrt 7 for CTRV, pi / sqrt 8 for CTRA), a truth one standard deviation away in heading alone is more than one standard deviation from the predicted x coordinate if the variances of x and turn rate are small enough. (e) What does hold in position: the moved truth is at most k * sqrt(var x + var y) + (k + rho) * (T sd(speed) + v T sd(heading) + v T^2 / 2 sd(turn rate)) from the predicted position (for CTRA with the acceleration terms), where T is the duration, v the estimated speed and rho = sqrt(5 / (alpha^2 (5 + beta))) (6 for CTRA), up to a term below 10^-300 (1 + rho^2) (v T^2 + a T^3).", "quantifier": "all objects, truths, durations, parameters and, in (c), all k", "why_tests_cant": "whether a covariance covers the error is a statement about all truths and all directions at once", "anchors": ["include/multiple_object_tracking/temporal_alignment.hpp: predict_to_time, default_unscented_transform", "include/multiple_object_tracking/unscented_kalman_filter.hpp: unscented_kalman_filter_predict", "src/ctrv_model.cpp: get_next_state", "src/ctra_model.cpp: get_next_state"]}
{"id": "C131", "title": "A gate wide enough for the uncertainty of the tracks and narrower than the distance of the objects makes the association right", "statement": "In exact real arithmetic (positive definite covariances, unscented transform with a Cholesky factor as Eigen computes it).  Let a track be right to within k standard deviations in every direction, k\u00b2 \u2264 \u03b1\u00b2 (n + \u03b2) with n the number of state variables, and let no sigma point's heading leave the interval from 0 to 3.14159265359 or, from there on, that to 2 pi.  (a) Then the distance (x, y and heading, as euclidean_distance measures it) of the predicted track from where its object has moved is at most \u221a(B\u00b2 + k\u00b2 V), in the upper interval \u221a(B\u00b2 + (k \u221aV + 2 \u00b7 10^-12)\u00b2).  V is the variance of heading + T \u00b7 turn rate.  B is k times the standard deviation of the position, plus k + \u221a(n / (\u03b1\u00b2 (n + \u03b2))) times those of speed, heading, turn rate and acceleration, each weighted by how far it moves the object in the time T, plus a term of the order of 2^-1022 v T\u00b2 (or T\u00b2 v + T\u00b3 a) for turn rates that units.h takes to be zero.  This holds for CTRV and CTRA.  (b) If all tracks satisfy this with a bound R, each detection is at most \u03b5 from the object it shows, tracks and detections of one object are of the same model, different objects are at least D apart, and the gate threshold g satisfies (R + \u03b5) (1 + u) \u2264 g < (D - R - \u03b5) (1 - u), where u is the relative error of the computed distance, then associating the predicted tracks with the detections yields exactly the pairs that show the same object.  This requires two such pairs, or one in which the poses differ, because a cost matrix of a single zero is not defined.  (c) If the detections, too, are right to within some number of standard deviations at their own times, with \u03b5 in place of R, a whole period (prediction of tracks and detections, scores, gate, association, covariance intersection, update of the track lists; C100) completes, provided the predicted covariances can be fused, and for each object it does what a tracker for that object alone would do (C102).  (d) The bound cannot be lowered: with the default parameters, for every k with 0 < k\u00b2 \u2264 7 (for CTRA 8), every R > 0 and every g < R there are a track and an object with the bound R such that the track, predicted to its own time (T = 0), is farther than g from the object.", "quantifier": "all tracks, detections, truths, times, parameters and gates, any number of objects, any optimal solver, any rounding with a relative error below 1", "why_tests_cant": "The association involves prediction, distance, gate and solver; that a threshold is right for every error within the uncertainty cannot be tested by examples.", "anchors": ["include/multiple_object_tracking/temporal_alignment.hpp: predict_to_time", "include/multiple_object_tracking/unscented_transform.hpp: unscented_transform", "include/multiple_object_tracking/scoring.hpp: euclidean_distance_score", "include/multiple_object_tracking/gating.hpp: prune_track_and_detection_scores_if", "include/multiple_object_tracking/track_matching.hpp: gnn_associator"]}
{"id": "C132", "title": "What process noise adds to a prediction, as computed", "statement": "In IEEE arithmetic, with sine and cosine right to 2^-52 and std::arg right to 2^-50 (in the sense of C89 and C90).  Let the prediction without noise be finite and at most 2^200, the heading a before and b after it be finite, the noise (linear acceleration L, angular acceleration A) at most 2^99 and the time step T at most 2^49.  (a) Then, with tighter errors and wider ranges than in C90 and relative to the state computed without noise, get_next_state with noise adds L/2 cos(a) T\u00b2 to x and L/2 sin(a) T\u00b2 to y up to an error of 2^-53 of the coordinate, 6 \u00b7 2^-53 of L T\u00b2 and 2^-95; L T to the speed and A T to the turn rate up to 2^-53 of the value, 3 \u00b7 2^-53 of the addend and 2^-198; for CTRA, L to the acceleration with one rounding; and, if |A T\u00b2| \u2264 2^19, A/2 T\u00b2 to the heading, whose sine and cosine are right to (65 + 2 |A T\u00b2|) 2^-53.  (b) So the error against the exact motion model with noise is that of the prediction without noise plus the stated one.  (c) If |L T\u00b2| is at most 2^-58 of a coordinate that is at least 2^-30, the coordinate does not change at all.  (d) If L is NaN or infinite, neither coordinate nor the speed (nor, for CTRA, the acceleration) is finite, and if A is, the turn rate is not, for all states and time steps.", "quantifier": "all states, time steps and noises of the stated magnitudes; (d) all", "why_tests_cant": "Errors of rounding depend on all bits of all inputs.", "anchors": ["src/ctrv_model.cpp: get_next_state", "src/ctra_model.cpp: get_next_state"]}
{"id": "C133", "title": "Which gate on the Mahalanobis score keeps the right detection", "statement": "In exact real arithmetic.  (a) If the object is within k standard deviations of the track's covariance of the track, in every direction, and a detection within j of the object, and both errors keep the heading in [0, 2 pi), the Mahalanobis score of track and detection is at most k + j (CTRV and CTRA).  (b) The condition on the heading is needed: however small k > 0 and however large g, there are a track (CTRV or CTRA) and an object k standard deviations away in heading alone, across 0, whose score is above g.  (c) For a track and a detection of the same kind, pruning the scores above g keeps the pair exactly if its score is at most g.  (d) After a prediction no gate is safe: for every g, every positive speed and every duration up to a million seconds there are a track (CTRV or CTRA) with uncorrelated variances and an object one standard deviation away, such that the predicted covariance is positive definite but a perfect detection of the moved object scores above g and is pruned.  (e) If the predicted covariance of x, y and heading is at least l > 0 in every direction, the score of the moved object is at most the reach of C131 divided by the square root of l (CTRV and CTRA; predicted headings below the cut).", "quantifier": "all tracks, detections, covariances, errors and gates; (d) all gates, speeds and durations up to a million seconds", "why_tests_cant": "Whether a gate ever drops a right pair depends on all covariances and errors; (d) needs a different track for each gate.", "anchors": ["include/multiple_object_tracking/scoring.hpp: mahalanobis_distance_score, score_tracks_and_detections", "include/multiple_object_tracking/ctrv_model.hpp: mahalanobis_distance", "include/multiple_object_tracking/ctra_model.hpp: mahalanobis_distance", "include/multiple_object_tracking/gating.hpp: prune_track_and_detection_scores_if", "include/multiple_object_tracking/temporal_alignment.hpp: predict_to_time"]}
{"id": "C134", "title": "When association by Mahalanobis scores is right", "statement": "Any number of CTRV and CTRA tracks that are each at most R from the pose (x, y, heading) of their object, detections that are at most eps from it, objects that are at least D apart, and tracks whose variance of the pose is between l and L along every direction.  Scores are Mahalanobis distances in real arithmetic, rounded with a relative error u < 1 (or too large to be kept by the gate).  (a) If the gate g satisfies (R + eps) / sqrt l * (1 + u) <= g < (D - R - eps) / sqrt L * (1 - u), scoring, pruning and the GNN associator with any optimal solver associate every track with the detection of its object and nothing else.  At least two objects have both a track and a detection, or one has whose poses differ (otherwise C23 applies).  (b) The same for tracks that are first predicted, with R the reach of C131 and l and L those of the predicted covariances; a whole period (prediction, association, fusion, management) then completes and does with every object what a tracker for that object alone would do.  (c) Without bounds for the variances this fails: for every gate g in (0, 10^31], every u < 1 and every K > 0 there are two tracks, one a metre and one K metres from a detection, such that the detection is associated with the second and the first gets none.", "quantifier": "all tracks, detections, objects, covariances, gates, roundings with a relative error below 1 and optimal solvers; any number of objects", "why_tests_cant": "The guarantee is about all scenes; (c) needs other covariances for each gate and distance.", "anchors": ["include/multiple_object_tracking/scoring.hpp: mahalanobis_distance_score, score_tracks_and_detections", "include/multiple_object_tracking/gating.hpp: prune_track_and_detection_scores_if", "include/multiple_object_tracking/track_matching.hpp: gnn_associator", "include/multiple_object_tracking/temporal_alignment.hpp: predict_to_time"]}
