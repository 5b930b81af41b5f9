{"id": "C01", "title": "make_balanced_panel keeps exactly the fully observed units", "statement": "On a panel without duplicate (unit, period) rows, make_balanced_panel returns, in the original order, exactly the rows of those units that are observed in every period occurring anywhere in the input; no row is altered, added or reordered.", "quantifier": "every finite long panel (any number of units, periods, any pattern of missing rows)", "why_tests_cant": "the pattern of missing rows is unbounded; tests check a handful of patterns", "anchors": ["moderndid/core/preprocess/utils.py:make_balanced_panel"]}
{"id": "C02", "title": "make_balanced_panel is idempotent and its output is balanced", "statement": "Applying make_balanced_panel to its own output changes nothing, and the output passes is_balanced_panel. (True for duplicate-free panels; with duplicate rows the row count is compared with the number of periods and both claims fail.)", "quantifier": "every finite long panel", "why_tests_cant": "requires all missing/duplicate patterns", "anchors": ["moderndid/core/preprocess/utils.py:make_balanced_panel", "moderndid/core/preprocess/utils.py:is_balanced_panel"]}
{"id": "C03", "title": "complete_data and make_balanced_panel agree; threshold is monotone", "statement": "On duplicate-free panels complete_data with no threshold keeps exactly the rows make_balanced_panel keeps; in general complete_data(min_periods=k) keeps exactly the rows of units seen in at least k distinct periods, and raising k only removes rows.", "quantifier": "every panel, every pair of thresholds k <= k'", "why_tests_cant": "two implementations, agreement must hold on all inputs", "anchors": ["moderndid/core/panel.py:complete_data", "moderndid/core/preprocess/utils.py:make_balanced_panel"]}
{"id": "C04", "title": "is_balanced_panel, has_gaps and scan_gaps tell the same story", "statement": "For every panel: has_gaps is false iff scan_gaps returns no row iff is_balanced_panel is true.", "quantifier": "every finite panel including the empty one", "why_tests_cant": "three separately coded predicates; equivalence is over all inputs", "anchors": ["moderndid/core/preprocess/utils.py:is_balanced_panel", "moderndid/core/panel.py:has_gaps", "moderndid/core/panel.py:scan_gaps"]}
{"id": "C05", "title": "fill_panel_gaps produces the full unit x period grid and loses nothing", "statement": "The output contains every pair of an observed unit and an observed period, contains every original row, adds a null row exactly for each missing pair, has no gaps, and on its own output fill_panel_gaps adds nothing.", "quantifier": "every finite panel", "why_tests_cant": "grid completeness over all inputs", "anchors": ["moderndid/core/panel.py:fill_panel_gaps"]}
{"id": "C06", "title": "scan_gaps lists exactly the missing pairs and agrees with diagnose_panel", "statement": "A pair (u,t) is listed by scan_gaps iff u and t both occur in the data and no row has that pair; each is listed once; the number listed equals units*periods - distinct pairs, which is diagnose_panel's n_gaps.", "quantifier": "every finite panel", "why_tests_cant": "counting identity over all inputs", "anchors": ["moderndid/core/panel.py:scan_gaps", "moderndid/core/panel.py:diagnose_panel"]}
{"id": "C07", "title": "deduplicate_panel leaves one row per pair, chosen as documented", "statement": "After deduplicate_panel every (unit, period) pair that occurred occurs exactly once; strategy first/last returns the first/last original row of that pair; the operation is idempotent and leaves duplicate-free panels unchanged (up to row order for mean); an unknown strategy is rejected.", "quantifier": "every finite panel and every strategy", "why_tests_cant": "all duplication patterns", "anchors": ["moderndid/core/panel.py:deduplicate_panel"]}
{"id": "C08", "title": "diagnose_panel counts are consistent", "statement": "n_duplicate pairs is zero iff no pair occurs twice; n_unbalanced is zero iff there are no gaps; n_gaps + distinct pairs = units*periods; the documented meaning of the duplicate count (rows sharing a pair with another row) differs from the number reported.", "quantifier": "every finite panel", "why_tests_cant": "identities over all inputs", "anchors": ["moderndid/core/panel.py:diagnose_panel"]}
{"id": "C09", "title": "get_group returns the first treated period", "statement": "For a unit with an absorbing treatment, get_group is the smallest period with positive treatment, and 0 iff the unit is never treated - provided periods are positive (a unit first treated in period 0 is indistinguishable from a never-treated one).", "quantifier": "every unit history", "why_tests_cant": "all histories", "anchors": ["moderndid/core/preprocess/utils.py:get_group"]}
{"id": "C10", "title": "get_first_difference telescopes and marks exactly the first row of each unit missing", "statement": "Within each unit (rows in time order) the first difference is null exactly at the unit's first row, and the sum of the differences up to any row equals that row's outcome minus the unit's first outcome.", "quantifier": "every finite panel", "why_tests_cant": "arbitrary length histories", "anchors": ["moderndid/core/preprocess/utils.py:get_first_difference"]}
{"id": "C11", "title": "panel_to_wide followed by wide_to_panel restores the panel", "statement": "For a duplicate-free panel, going wide and back long gives the same set of (unit, period, value) observations; the stub matching is unambiguous only when no stub plus separator is a prefix of another column (otherwise values are attributed to the wrong stub).", "quantifier": "every panel and every set of stub names", "why_tests_cant": "string prefix ambiguities cannot be enumerated", "anchors": ["moderndid/core/panel.py:panel_to_wide", "moderndid/core/panel.py:wide_to_panel"]}
{"id": "C12", "title": "DDD subgroups partition the units", "statement": "create_ddd_subgroups assigns every unit to exactly one of the four subgroups and the assignment is: 4 treated&eligible, 3 treated&ineligible, 2 untreated&eligible, 1 untreated&ineligible; the in-estimator recomputation used for each (g,t) cell is the same function.", "quantifier": "every treatment/partition value", "why_tests_cant": "complete case analysis", "anchors": ["moderndid/core/preprocess/utils.py:create_ddd_subgroups", "moderndid/didtriple/estimators/ddd_mp.py:_compute_single_ddd"]}
{"id": "C13", "title": "Treatment-time encoding is canonical", "statement": "After encoding, a unit's cohort is infinity iff its original value was 0, infinity or later than the last period; all other cohorts are unchanged; encoding twice equals encoding once.", "quantifier": "every panel and cohort assignment", "why_tests_cant": "all values", "anchors": ["moderndid/core/preprocess/transformers.py:TreatmentEncoder"]}
{"id": "C14", "title": "Weights are normalised to mean one and scale does not matter", "statement": "The normalised weights average to 1 and multiplying the user's weights by any positive constant leaves the normalised weights unchanged.", "quantifier": "every non-empty weight vector with non-zero mean", "why_tests_cant": "all weight vectors", "anchors": ["moderndid/core/preprocess/transformers.py:WeightNormalizer"]}
{"id": "C15", "title": "Early-treated units are removed completely", "statement": "After the early-treatment filter no remaining row has a finite cohort <= first period + anticipation, whole units (never single rows) are removed, and units with later cohorts keep all their rows.", "quantifier": "every panel and anticipation horizon", "why_tests_cant": "all panels", "anchors": ["moderndid/core/preprocess/transformers.py:EarlyTreatmentFilter"]}
{"id": "C16", "title": "Every remaining treated cohort has a usable base period", "statement": "After preprocessing a balanced panel, each treated cohort g has a period t with t + anticipation < g. (Fails for unbalanced input whose first period disappears when early-treated units are dropped.)", "quantifier": "every panel, anticipation horizon", "why_tests_cant": "all panels", "anchors": ["moderndid/core/preprocess/transformers.py:EarlyTreatmentFilter", "moderndid/did/compute_att_gt.py:run_att_gt_estimation"]}
{"id": "C17", "title": "A comparison group always exists after preprocessing", "statement": "If no never-treated unit exists, after control-group creation: with never-treated controls the last cohort is recoded as never treated; with not-yet-treated controls every remaining period precedes the last cohort minus anticipation, so the last cohort is a valid comparison in every remaining cell.", "quantifier": "every panel with at least one treated unit", "why_tests_cant": "all cohort structures", "anchors": ["moderndid/core/preprocess/transformers.py:ControlGroupCreator"]}
{"id": "C18", "title": "Outcome arrays are aligned by unit", "statement": "For a balanced duplicate-free panel in which cohort and id are time-invariant, sorting by (period, cohort, id) and slicing into blocks of id_count yields one outcome vector per period such that entry i of every vector belongs to the same unit, namely row i of the time-invariant table; hence entry-wise differences are within-unit differences.", "quantifier": "every balanced panel, any initial row order", "why_tests_cant": "row order and sizes unbounded", "anchors": ["moderndid/core/preprocess/tensors.py", "moderndid/core/preprocess/transformers.py:DataSorter", "moderndid/core/preprocess/transformers.py:PanelBalancer"]}
{"id": "C19", "title": "Treated and control units of a cell are exactly the documented ones", "statement": "For a cell (g,t) the units marked treated are exactly cohort g; with never-treated controls the controls are exactly the infinite cohort; with not-yet-treated controls they are exactly the units whose cohort is later than max(t, base)+anticipation (including never-treated); no unit is both; all others are excluded - for the block-slice implementation used on panels and for the flag implementation used on repeated cross-sections.", "quantifier": "every cohort table, cell, control-group option", "why_tests_cant": "block arithmetic over arbitrary cohort sizes", "anchors": ["moderndid/did/compute_att_gt.py:get_did_cohort_index"]}
{"id": "C20", "title": "Preprocessing is insensitive to row order", "statement": "Permuting the rows of the input gives the same encoded, filtered, balanced and sorted data.", "quantifier": "every permutation of every panel", "why_tests_cant": "n! permutations", "anchors": ["moderndid/core/preprocess/transformers.py", "moderndid/core/preprocess/builders.py"]}
{"id": "C21", "title": "Base period selection", "statement": "For a post-treatment cell (t >= g) the base is the last period t0 with t0 + anticipation < g; with a varying base, pre-treatment cells use the immediately preceding period; with a universal base the base is that same last period t0 for every t, and the cell t = t0 is not estimated.", "quantifier": "every period list, g, t, anticipation", "why_tests_cant": "all period lists", "anchors": ["moderndid/did/compute_att_gt.py:run_att_gt_estimation"]}
{"id": "C22", "title": "Every (g,t) cell is enumerated once, in order", "statement": "The estimation loop visits each treated cohort x period pair exactly once in cohort-major order (skipping only the first period under varying base), and dropped cells do not shift the pairing between estimates, labels and influence-function columns.", "quantifier": "every cohort and period list", "why_tests_cant": "all sizes", "anchors": ["moderndid/did/compute_att_gt.py:compute_att_gt"]}
{"id": "C23", "title": "Results do not depend on thread scheduling", "statement": "For every order in which worker threads start, finish and are collected, parallel_map returns the same list as the sequential map, in input order; it raises iff the sequential map raises, with an exception raised by one of the tasks; it never deadlocks. (Which of several failing tasks' exceptions is raised does depend on the schedule.)", "quantifier": "every completion order and number of workers", "why_tests_cant": "schedules cannot be enumerated by tests", "anchors": ["moderndid/core/parallel.py:parallel_map"]}
{"id": "C24", "title": "Influence functions are rescaled consistently", "statement": "A cell's influence function is zero for units outside the cell, equals n/n_cell times the estimator's influence value for units inside, and so its average over all n units equals the average over the cell's units.", "quantifier": "every cell membership pattern", "why_tests_cant": "all patterns", "anchors": ["moderndid/did/compute_att_gt.py:run_drdid"]}
{"id": "C25", "title": "Without covariates DR, IPW and outcome regression all equal the 2x2 DiD of weighted means", "statement": "With an intercept-only design, positive weight on both arms, the three panel estimators all return (weighted mean change of treated) - (weighted mean change of controls).", "quantifier": "every outcome, treatment and weight vector", "why_tests_cant": "identity over reals", "anchors": ["moderndid/drdid/estimators/drdid_panel.py", "moderndid/drdid/estimators/reg_did_panel.py", "moderndid/drdid/estimators/std_ipw_did_panel.py"]}
{"id": "C26", "title": "The ATT is invariant to the scale of weights and to unit-level outcome levels", "statement": "Scaling all weights by c>0 leaves ATT unchanged; adding a unit-specific constant to both outcomes leaves it unchanged; adding a common time shock leaves it unchanged; adding delta to treated post outcomes adds delta.", "quantifier": "all data vectors and constants", "why_tests_cant": "real-valued identities", "anchors": ["moderndid/drdid/estimators/drdid_panel.py"]}
{"id": "C27", "title": "Influence functions average to zero", "statement": "Given the score/normal equations of the fitted nuisance models, the estimator's influence function has sample mean zero.", "quantifier": "all data", "why_tests_cant": "real-valued identity", "anchors": ["moderndid/drdid/estimators/drdid_panel.py", "moderndid/drdid/estimators/reg_did_panel.py", "moderndid/drdid/estimators/std_ipw_did_panel.py"]}
{"id": "C28", "title": "Double robustness of the point estimate", "statement": "If the control-arm outcome regression fits the control changes exactly, the DR estimate does not depend on the propensity score; if controls reweighted by the odds balance the covariates of the treated, the DR estimate does not depend on the outcome coefficients.", "quantifier": "all data, all nuisance values", "why_tests_cant": "algebraic identity", "anchors": ["moderndid/drdid/estimators/drdid_panel.py"]}
{"id": "C29", "title": "Without covariates repeated cross-section estimators equal the four-mean DiD", "statement": "With an intercept-only design the RC estimators return the difference of treated and control post-pre changes in weighted means.", "quantifier": "all data", "why_tests_cant": "algebraic identity", "anchors": ["moderndid/drdid/estimators/reg_did_rc.py", "moderndid/drdid/estimators/std_ipw_did_rc.py", "moderndid/drdid/estimators/drdid_rc.py"]}
{"id": "C30", "title": "Trimming never affects treated units and only removes controls", "statement": "Propensity-score trimming leaves every treated observation in, removes controls with score >= trim level, and treated weights are unchanged by trimming.", "quantifier": "all score vectors and trim levels", "why_tests_cant": "all vectors", "anchors": ["moderndid/drdid/estimators/drdid_panel.py", "moderndid/didtriple/nuisance.py:_compute_pscore"]}
{"id": "C31", "title": "Aggregation weights are a probability distribution", "statement": "For simple, group, dynamic and calendar aggregation the weights over the aggregated ATT(g,t) are non-negative and sum to one, so each aggregate lies between the smallest and the largest ATT(g,t) it combines and equals the common value when all are equal.", "quantifier": "every set of cells and cohort sizes", "why_tests_cant": "all weights", "anchors": ["moderndid/did/compute_aggte.py"]}
{"id": "C32", "title": "Aggregations combine exactly the right cells", "statement": "The simple aggregate uses exactly cells with g <= t; the dynamic effect at e uses exactly cells with t - g = e (in original time units); the calendar effect at t uses exactly cells in period t with g <= t; the group effect of g uses exactly that cohort's cells with t >= g.", "quantifier": "every set of cells", "why_tests_cant": "all sets", "anchors": ["moderndid/did/compute_aggte.py"]}
{"id": "C33", "title": "Time recoding is an order isomorphism", "statement": "The internal recoding of periods is injective and order preserving, decoding inverts encoding for all observed periods, and the vectorised and scalar recoders agree.", "quantifier": "every list of periods and cohorts", "why_tests_cant": "all lists", "anchors": ["moderndid/did/compute_aggte.py:_orig2t", "moderndid/did/compute_aggte.py:_t2orig", "moderndid/did/compute_aggte.py:_orig2t_array"]}
{"id": "C34", "title": "max_e means the same number of periods for all aggregations", "statement": "The max_e bound limits event time in original time units in all aggregation types. (Violated: simple and group aggregation compare recoded indices, so with gaps between periods max_e admits longer exposures.)", "quantifier": "every period list", "why_tests_cant": "irregular spacing", "anchors": ["moderndid/did/compute_aggte.py"]}
{"id": "C35", "title": "balance_e keeps the composition constant", "statement": "With balance_e set, for every reported event time 0 <= e <= balance_e exactly the same cohorts contribute.", "quantifier": "every cell set and balance_e", "why_tests_cant": "all cohort structures", "anchors": ["moderndid/did/compute_aggte.py"]}
{"id": "C36", "title": "Weight influence functions vanish on constant effects and average to zero", "statement": "The correction for estimated cohort shares contributes zero when all combined ATTs are equal, and every column of the correction has sample mean zero.", "quantifier": "all cohort indicators and shares", "why_tests_cant": "algebraic identity", "anchors": ["moderndid/did/compute_aggte.py:_compute_weight_inf_func"]}
{"id": "C37", "title": "Overall group effect equals the simple combination of group effects by cohort share", "statement": "The overall effect of the group aggregation is the cohort-share weighted mean of the reported group effects; of dynamic and calendar the plain mean of reported non-negative event times / periods; its influence function is the same linear combination of the reported influence functions plus the weight correction.", "quantifier": "all inputs", "why_tests_cant": "algebraic identity", "anchors": ["moderndid/did/compute_aggte.py"]}
{"id": "C38", "title": "Sampling weights reach the aggregation step", "statement": "Cohort shares used by aggte are weighted by the user's sampling weights. (Violated unless the user's weight column happens to be called 'weights'.)", "quantifier": "every weight column name", "why_tests_cant": "name dependent", "anchors": ["moderndid/did/att_gt.py", "moderndid/core/preprocess/tensors.py"]}
{"id": "C39", "title": "Mammen multipliers have the first three moments of the theory", "statement": "The two-point multiplier takes its two values with probabilities that give mean 0, variance 1 and third moment 1.", "quantifier": "exact real arithmetic", "why_tests_cant": "irrational constants", "anchors": ["moderndid/core/numba_utils.py:multiplier_bootstrap", "moderndid/cupy/bootstrap.py"]}
{"id": "C40", "title": "Bootstrap draws are linear in the influence function and batching does not change them", "statement": "For fixed multipliers each draw is linear in the influence matrix, a zero influence column gives zero draws, and processing the draws in batches of any size gives the same matrix as one pass.", "quantifier": "all matrices, all batch sizes", "why_tests_cant": "all sizes", "anchors": ["moderndid/core/numba_utils.py:multiplier_bootstrap"]}
{"id": "C41", "title": "Cluster aggregation is a partition sum and both implementations agree", "statement": "The per-cluster sums computed by the Python and the compiled path coincide, cluster sums add up to the total, relabelling clusters only permutes the output, and singleton clusters reproduce the input.", "quantifier": "all labelings", "why_tests_cant": "all labelings", "anchors": ["moderndid/core/numba_utils.py:compute_cluster_sums", "moderndid/core/numba_utils.py:aggregate_by_cluster"]}
{"id": "C42", "title": "Standard errors scale with the influence function and never go negative", "statement": "Analytical standard errors are sqrt(sum psi^2)/n, are non-negative, scale by |c| when the influence function scales by c; confidence bands are symmetric around the estimate and nested in the critical value.", "quantifier": "all influence vectors", "why_tests_cant": "real identities", "anchors": ["moderndid/did/att_gt.py", "moderndid/did/compute_aggte.py:_compute_se"]}
{"id": "C43", "title": "Blocked Gram equals plain Gram", "statement": "weighted_gram returns the same X'WX (and X'Wy) for every block size.", "quantifier": "all matrices, all block sizes", "why_tests_cant": "all sizes", "anchors": ["moderndid/distributed/_gram.py:weighted_gram"]}
{"id": "C44", "title": "Partitioning does not change distributed results", "statement": "Summing per-partition Gram matrices / sufficient statistics gives the same result for every way of splitting the rows into partitions and for every order or tree shape of reduction; empty partitions are ignored.", "quantifier": "every partitioning and reduction tree", "why_tests_cant": "unbounded partitionings", "anchors": ["moderndid/distributed/_utils.py:_reduce_gram_list", "moderndid/distributed/_utils.py:sum_global_stats", "moderndid/distributed/_regression.py"]}
{"id": "C45", "title": "Distributed IRLS follows the same iterates as the single-machine fit", "statement": "For every partitioning, each distributed IRLS/WLS iterate equals the single-partition iterate, so the number of iterations and the final coefficients coincide.", "quantifier": "every partitioning, any number of iterations", "why_tests_cant": "unbounded iterations", "anchors": ["moderndid/distributed/_regression.py", "moderndid/cupy/regression.py"]}
{"id": "C46", "title": "Distributed DiD cell estimates equal the local formula", "statement": "The ATT computed from summed partition statistics equals the local DR/REG/IPW formula on the concatenated data.", "quantifier": "every partitioning", "why_tests_cant": "all partitionings", "anchors": ["moderndid/distributed/_did_partition.py", "moderndid/didtriple/nuisance.py:_compute_did"]}
{"id": "C47", "title": "chunked_vcov equals the one-shot matrix and is positive semidefinite", "statement": "For every chunk size the chunked covariance equals Psi'Psi/n; quadratic forms in it are non-negative.", "quantifier": "all matrices and chunk sizes", "why_tests_cant": "all sizes", "anchors": ["moderndid/distributed/_utils.py:chunked_vcov"]}
{"id": "C48", "title": "auto_tune_partitions respects its bounds", "statement": "The number of partitions is at least the default parallelism and the per-partition memory bound is met; it is monotone in the number of rows.", "quantifier": "all sizes", "why_tests_cant": "integer arithmetic over all inputs", "anchors": ["moderndid/distributed/_utils.py:auto_tune_partitions"]}
{"id": "C49", "title": "Triple-difference combines three DiDs", "statement": "The DDD estimate is att(4v3)+att(4v2)-att(4v1); without covariates it equals (change 4 - change 3) - (change 2 - change 1) in weighted means for all three estimation methods.", "quantifier": "all data", "why_tests_cant": "algebraic identity", "anchors": ["moderndid/didtriple/nuisance.py:compute_all_did", "moderndid/didtriple/estimators/ddd_panel.py"]}
{"id": "C50", "title": "The DDD influence function is the matching combination and averages to zero", "statement": "Each comparison's influence values are zero outside its two subgroups, are weighted by n/n_comparison, and combine with the same signs as the estimates; given the fit's normal equations the combined function has mean zero.", "quantifier": "all data", "why_tests_cant": "algebraic identity", "anchors": ["moderndid/didtriple/nuisance.py"]}
{"id": "C51", "title": "DDD multi-period estimates, labels and influence columns stay aligned", "statement": "Column k of the returned influence matrix belongs to the k-th returned ATT(g,t). (Violated when any cell is skipped: columns are indexed by the cell counter but trimmed to the number of surviving cells.)", "quantifier": "every pattern of skipped cells", "why_tests_cant": "all skip patterns", "anchors": ["moderndid/didtriple/estimators/ddd_mp.py:ddd_mp", "moderndid/didtriple/estimators/ddd_mp_rc.py"]}
{"id": "C52", "title": "GMM combination weights sum to one and minimise variance", "statement": "Weights used to combine several comparison cohorts sum to one; among all weights summing to one they minimise the estimated variance; with equal estimates the combined estimate is that value.", "quantifier": "all positive definite matrices", "why_tests_cant": "real linear algebra", "anchors": ["moderndid/didtriple/estimators/ddd_mp.py:_gmm_aggregate"]}
{"id": "C53", "title": "DDD cells never use already-treated or not-yet-listed controls", "statement": "For a (g,t) cell the units used are exactly cohort g plus never-treated, plus (not-yet-treated option) cohorts later than max(t, base).", "quantifier": "all cohort values", "why_tests_cant": "all values", "anchors": ["moderndid/didtriple/estimators/ddd_mp.py:_get_cell_data"]}
{"id": "C54", "title": "DDD aggregation averages only estimated cohorts", "statement": "The overall group effect is a weighted average of the cohorts' estimated effects. (Violated: cohorts without any post-treatment cell enter with effect 0 and full weight.)", "quantifier": "every skip pattern", "why_tests_cant": "all patterns", "anchors": ["moderndid/didtriple/compute_agg_ddd.py:_compute_group"]}
{"id": "C55", "title": "Switch timing is read off the treatment path", "statement": "For every unit the reported first switch is the first period whose treatment differs from the preceding one, infinity iff the path is constant; the switch direction is the sign of that first change; before the first switch treatment equals its baseline.", "quantifier": "every treatment path", "why_tests_cant": "unbounded paths", "anchors": ["moderndid/core/preprocess/transformers.py:SwitcherIdentifier"]}
{"id": "C56", "title": "Bidirectional switchers lose exactly the rows after they have been on both sides", "statement": "By default rows are dropped from the first period at which the unit has been both above and below its baseline, and the remaining path is on one side of the baseline only.", "quantifier": "every path", "why_tests_cant": "unbounded paths", "anchors": ["moderndid/core/preprocess/transformers.py:SwitcherIdentifier"]}
{"id": "C57", "title": "Horizon effects are averages of the documented group-level DiDs", "statement": "With unit weights the estimate at horizon l is the average over switchers (reaching l with available controls) of their outcome change minus the mean change of same-baseline units not yet switched at that date.", "quantifier": "every panel", "why_tests_cant": "all panels", "anchors": ["moderndid/didinter/compute_did_multiplegt.py:_compute_did_effects"]}
{"id": "C58", "title": "Out-switchers enter with a negative sign", "statement": "Documented DID_l multiplies each group's DiD by its switch direction. (Violated: the estimate is not signed, so for treatment decreases the reported and the normalised effect have the opposite sign of the documented one.)", "quantifier": "every panel with decreasing treatments", "why_tests_cant": "all panels", "anchors": ["moderndid/didinter/compute_did_multiplegt.py:_compute_did_effects", "docs/source/background/didinter.rst"]}
{"id": "C59", "title": "Requested horizons are clamped to what the data support", "statement": "The number of effects/placebos actually used never exceeds the maximal available and equals the request when available.", "quantifier": "all panels", "why_tests_cant": "all panels", "anchors": ["moderndid/core/preprocess/transformers.py:DIDInterConfigUpdater"]}
{"id": "C60", "title": "Smoothness constraint matrices encode bounded second differences", "statement": "A path (with the reference period normalised to zero) satisfies A*delta <= d iff all its second differences are at most M in absolute value; linear paths satisfy it for every M>=0; the set grows with M.", "quantifier": "all numbers of pre/post periods, all paths", "why_tests_cant": "dimension unbounded", "anchors": ["moderndid/didhonest/bounds.py", "moderndid/didhonest/numba.py", "moderndid/didhonest/delta/sd/sd.py"]}
{"id": "C61", "title": "Monotonicity and sign restrictions are encoded correctly", "statement": "A*delta <= 0 iff the path is increasing (decreasing) / post-period biases are positive (negative).", "quantifier": "all dimensions", "why_tests_cant": "dimension unbounded", "anchors": ["moderndid/didhonest/bounds.py"]}
{"id": "C62", "title": "Relative-magnitude constraint matrices encode the documented set", "statement": "For fixed reference difference s, A*delta <= 0 iff all pre differences are at most the signed reference difference and all post differences at most Mbar times it; the union over s and sign is the documented set. (Violated: the search over s omits the first pre-period difference.)", "quantifier": "all dimensions and paths", "why_tests_cant": "dimension unbounded", "anchors": ["moderndid/didhonest/delta/rm/rm.py"]}
{"id": "C63", "title": "Identified sets contain the truth and are nested in the bound", "statement": "Whenever the true violation path lies in the documented restriction set, the reported identified set contains the true effect; under smoothness restrictions (also with sign or monotonicity restrictions) the reported interval is exactly the identified set; the set grows with the bound. (Violated: for relative magnitudes because of the omitted first pre-period difference, where the true effect is excluded; for smoothness when the bound contradicts the pre-period coefficients, where the identified set is empty but the point estimate is reported, which also breaks nesting.)", "quantifier": "all paths, all bounds, all weights", "why_tests_cant": "LP over all dimensions", "anchors": ["moderndid/didhonest/delta/rm/rm.py", "moderndid/didhonest/delta/sd/sd.py"]}
{"id": "C64", "title": "Compiled and interpreted helpers agree", "statement": "The interpreted and compiled versions of every sensitivity-analysis helper (matrix constructors, row search, selection matrix, safe division, clipping, quadratic forms, truncation bounds) return the same result. (Violated: truncation bounds when a coefficient is non-zero but below the numerical threshold, or when the variance is below the threshold; clipping with lower > upper.)", "quantifier": "all inputs", "why_tests_cant": "all inputs", "anchors": ["moderndid/didhonest/numba.py"]}
{"id": "C65", "title": "use_backend restores the previous backend on every exit path", "statement": "For any nesting of use_backend blocks, set_backend calls inside them and exceptions, after the outermost block exits the active backend is what it was before; an invalid name changes nothing; worker threads see the caller's backend and cannot change it.", "quantifier": "every program of nested blocks, sets and exceptions", "why_tests_cant": "unbounded histories", "anchors": ["moderndid/cupy/backend.py", "moderndid/core/parallel.py"]}
{"id": "C66", "title": "Spline objects never serve stale knots", "statement": "After any sequence of setter calls, the knot sequence, degrees of freedom and x-index reported are those of a freshly built object with the current settings, and an accepted setter call takes effect. (Violated after an extended knot sequence was set, where a later set_internal_knots is silently undone; after a rejected set_boundary_knots, set_knot_sequence or set_degree, which leave a mixture of old and new settings; and by set_knot_sequence when the requested sequence equals an out-of-date cache.)", "quantifier": "every history of setter calls", "why_tests_cant": "unbounded histories", "anchors": ["moderndid/didcont/spline/base.py"]}
{"id": "C67", "title": "Knot sequences have the right length and multiplicity", "statement": "For a simple knot sequence: length = internal + 2*(degree+1), sorted, boundary knots repeated degree+1 times, so number of basis functions = internal + degree + 1 = degrees of freedom; an object constructed with df has exactly df basis functions. (Violated when constructed with df and no x lies between the boundary knots.)", "quantifier": "all degrees and knots", "why_tests_cant": "all sizes", "anchors": ["moderndid/didcont/spline/base.py"]}
{"id": "C68", "title": "Basis dimension formulas", "statement": "basis_dimension returns the number of columns of the additive / tensor / glp basis the model-matrix functions build, and 0 when no regressor has positive degree. (Violated for glp with two or more active regressors: the reported dimension is not the number of columns of the glp model matrix.)", "quantifier": "all degree/segment lists with any number of regressors", "why_tests_cant": "all lists", "anchors": ["moderndid/didcont/utils.py:basis_dimension", "moderndid/didcont/npiv/prodspline.py"]}
{"id": "C69", "title": "Validation accepts exactly the well-formed inputs", "statement": "For each pipeline (att_gt/cont_did panel, two-period, two-period ddd, did_multiplegt) validation succeeds iff every named column exists, key columns are numeric, (unit, period) pairs are unique, cohort/treatment/partition/cluster are constant within unit, weights and doses are not negative (plus the pipeline's period and group-count conditions); the composite reports exactly the components' errors. (Violated: NaN weights pass; a missing unit/cohort/period column raises another exception before the report; the two-period and ddd pipelines accept duplicated (unit, period) rows; did_multiplegt counts a missing treatment as a treatment change.)", "quantifier": "all data frames and configurations", "why_tests_cant": "all frames", "anchors": ["moderndid/core/preprocess/validators.py", "moderndid/core/preprocess/builders.py:validate"]}
{"id": "C70", "title": "cont_did does not depend on how periods are numbered", "statement": "Relabelling the periods and cohorts of the input by any strictly increasing map leaves the sets of cohorts and (cohort, period) cells estimated by cont_did unchanged up to the same relabelling. (Violated: preprocessing renumbers the period column to 1..T but leaves the cohort column in original units.)", "quantifier": "all panels and all strictly increasing relabellings of time", "why_tests_cant": "a test fixes one numbering of the periods (typically 1..T, for which the renumbering is the identity)", "anchors": ["moderndid/core/preprocess/transformers.py: TimePeriodRecoder, ContDID pipeline", "moderndid/didcont/estimation/process_panel.py: _build_pte_params"]}
{"id": "C71", "title": "A cell that could not be estimated is not reported as a zero effect", "statement": "Every (cohort, period) estimate reported by att_gt, other than the normalised base period of a universal base, was computed from at least one treated and one comparison unit. (Holds with a varying base apart from NaN results; violated with a universal base: cells without comparison units or with a failed estimator are reported as effect 0 with standard error contribution 0.)", "quantifier": "all preprocessed panels, all cells, all estimators", "why_tests_cant": "a test exercises particular panels; the claim is about every cell of every panel, including those for which estimation fails", "anchors": ["moderndid/did/compute_att_gt.py: _process_gt_cell_did, run_att_gt_estimation"]}
{"id": "C72", "title": "Influence values are derivatives of the estimate", "statement": "The influence value a two-period estimator reports for an observation equals the derivative of its estimate with respect to that observation's weight (infinitesimal jackknife), the outcome regressions and the propensity score being refitted to the perturbed weights. (Holds for drdid_panel, reg_did_panel, ipw_did_panel, std_ipw_did_panel, drdid_imp_panel, reg_did_rc, std_ipw_did_rc, and ipw_did_rc with equal weights. Violated: drdid_trad_rc and drdid_rc, where the correction for the estimated pre-period outcome regression has the wrong sign; ipw_did_rc with unequal weights, off by (weight-1) times the estimate; drdid_imp_rc and drdid_imp_local_rc, which omit the regressions' estimation error although covariates need not balance within each period. In each violated case the exact gap is given, and it vanishes when the covariate means balance, respectively when weights are equal.)", "quantifier": "all samples, weights, covariates, observations and differentiable refit paths, for each of the twelve two-period estimators", "why_tests_cant": "it is a statement about derivatives at every data set; a test compares standard errors on a few simulated samples where the wrong term is close to zero", "anchors": ["moderndid/drdid/estimators/drdid_panel.py", "moderndid/drdid/estimators/reg_did_panel.py", "moderndid/drdid/estimators/std_ipw_did_panel.py", "moderndid/drdid/estimators/ipw_did_panel.py:288-305", "moderndid/drdid/estimators/drdid_imp_panel.py", "moderndid/drdid/estimators/drdid_rc.py:488-524", "moderndid/drdid/estimators/drdid_trad_rc.py:378-413", "moderndid/drdid/estimators/reg_did_rc.py", "moderndid/drdid/estimators/std_ipw_did_rc.py", "moderndid/drdid/estimators/ipw_did_rc.py:321-370", "moderndid/drdid/estimators/drdid_imp_rc.py:286-328", "moderndid/drdid/estimators/drdid_imp_local_rc.py:337-401"]}
{"id": "C73", "title": "att_gt without covariates is the documented difference of mean changes", "statement": "For a balanced panel and no covariates, the estimate att_gt reports for cohort g and period t equals the weighted mean change of the outcome of cohort g from the documented base period to t minus that of the documented comparison group, for every estimation method.", "quantifier": "all balanced panels, weights, cells, control groups, base periods, anticipation", "why_tests_cant": "end-to-end statement over all panels and all option combinations", "anchors": ["moderndid/did/compute_att_gt.py", "moderndid/core/preprocess/tensors.py", "moderndid/drdid/estimators/drdid_panel.py"]}
{"id": "C74", "title": "An estimate needs observations in both groups", "statement": "A two-period estimator returns a number only if some treated and some comparison observation has non-zero weight; otherwise it raises or returns NaN. (Violated by reg_did_panel, which returns ATT 0 with standard error 0 when no treated observation has weight.)", "quantifier": "all samples and weights", "why_tests_cant": "ranges over every degenerate sample", "anchors": ["moderndid/drdid/estimators/reg_did_panel.py:128-143", "moderndid/drdid/estimators/drdid_panel.py", "moderndid/drdid/estimators/std_ipw_did_panel.py"]}
{"id": "C75", "title": "Aggregate influence functions are derivatives of the aggregates", "statement": "The influence value aggte reports for a unit equals the derivative of the aggregated effect with respect to that unit's sampling weight, provided the ATT(g,t) influence values are such derivatives: both the movement of the ATT(g,t) and the movement of the estimated cohort shares are accounted for.", "quantifier": "all sets of group-time estimates with differentiable dependence on the unit's weight, all cohort assignments, all weights with non-zero total share, all units", "why_tests_cant": "derivative statement over all tables, cohort assignments and weights", "anchors": ["moderndid/did/compute_aggte.py:_compute_weight_inf_func", "moderndid/did/compute_aggte.py:_get_agg_inf_func"]}
{"id": "C76", "title": "An aggregate of no cells is not reported as a number", "statement": "aggte reports a number for a cohort, event time, period or overall only if at least one ATT(g,t) is combined in it. (Violated by type='simple', which returns 0 when no cell is post-treatment.)", "quantifier": "all tables of group-time estimates", "why_tests_cant": "ranges over all tables", "anchors": ["moderndid/did/compute_aggte.py:_compute_simple_att"]}
{"id": "C77", "title": "Bootstrap variance matches the analytical one", "statement": "Conditional on the data, the variance of one multiplier-bootstrap draw is sum psi^2 / n^2, i.e. the square of the analytical standard error; with clusters of equal size it is the cluster-robust variance. (Violated for clusters of unequal size, where cluster means instead of scaled cluster sums are perturbed.)", "quantifier": "all influence functions and clusterings", "why_tests_cant": "an expectation over all multiplier draws for every influence function", "anchors": ["moderndid/did/mboot.py:mboot", "moderndid/core/numba_utils.py:multiplier_bootstrap", "moderndid/core/numba_utils.py:aggregate_by_cluster"]}
{"id": "C78", "title": "A DDD cell's standard error is the one implied by its influence function", "statement": "For every (g,t) cell of a multi-period triple difference the reported standard error is sqrt(mean(psi^2)/n) of the reported influence function. (Violated when several comparison cohorts are combined: the reported value is scaled by N/sqrt((N-1) n), N the units of the cell.)", "quantifier": "all influence values, numbers of units and comparison cohorts", "why_tests_cant": "identity over all data", "anchors": ["moderndid/didtriple/estimators/ddd_mp.py:_gmm_aggregate", "moderndid/didtriple/estimators/ddd_mp.py:ddd_mp"]}
{"id": "C79", "title": "Aggregate DDD influence functions account for the estimated cohort shares", "statement": "The influence value agg_ddd reports for a unit is the derivative of the aggregate with respect to that unit's weight, including the movement of the cohort shares. (Holds for the overall group effect; violated for simple, event-study and calendar aggregation, which leave the shares' part out.)", "quantifier": "all tables of estimates, cohort assignments, units", "why_tests_cant": "derivative statement over all tables", "anchors": ["moderndid/didtriple/compute_agg_ddd.py:_compute_simple", "moderndid/didtriple/compute_agg_ddd.py:_compute_group", "moderndid/didtriple/compute_agg_ddd.py:_get_weight_influence"]}
{"id": "C80", "title": "Observation weights are used by ddd()", "statement": "The estimate returned by ddd(weightsname=...) depends on the weights as the weighted triple difference does. (Violated with more than two periods: the weights are not passed on.)", "quantifier": "all data and weights", "why_tests_cant": "all inputs", "anchors": ["moderndid/didtriple/ddd.py:ddd"]}
{"id": "C81", "title": "Not-yet-switchers serve as controls", "statement": "did_multiplegt uses as controls the units with the same baseline that have not switched yet; a design with two units of equal baseline and different switch dates is estimable. (Violated: rows of a baseline in which every unit eventually switches are removed before estimation; rows survive iff a unit of that baseline that never switches is observed in the period.)", "quantifier": "all panels", "why_tests_cant": "all panels; tests always include never-switchers", "anchors": ["moderndid/core/preprocess/transformers.py:ControlsTimeFilter", "docs/source/background/didinter.rst"]}
{"id": "C82", "title": "same_switchers uses the same units at every horizon", "statement": "With same_switchers (same_switchers_pl) every effect (placebo) horizon is computed on the same switchers. (Holds for effects with same_switchers alone in balanced panels with never-switchers; violated when both flags are set, and same_switchers_pl alone changes nothing.)", "quantifier": "all panels, all horizons, all option combinations", "why_tests_cant": "all panels", "anchors": ["moderndid/didinter/compute_did_multiplegt.py:compute_same_switchers_mask", "moderndid/didinter/compute_did_multiplegt.py:_compute_did_effects"]}
{"id": "C83", "title": "Normalisation divides by the mean absolute cumulated treatment change", "statement": "The normaliser at horizon l is (1/N_l) sum_g |sum_{k<l} (D_{g,F_g+k} - D_{g,1})|. (Holds without crossing; violated for units kept by keep_bidirectional_switchers.)", "quantifier": "all panels and horizons", "why_tests_cant": "all panels", "anchors": ["moderndid/didinter/compute_did_multiplegt.py:_compute_delta_d"]}
{"id": "C84", "title": "The variation filter keeps every baseline with two switch dates", "statement": "Exactly the baselines containing two units with different first-switch dates (never counts as a date) are kept, however periods are numbered. (Violated when a unit switches in period 0.)", "quantifier": "all panels and period numberings", "why_tests_cant": "all numberings", "anchors": ["moderndid/core/preprocess/transformers.py:FgVariationFilter"]}
{"id": "C86", "title": "Average total effect is effect per unit of treatment", "statement": "The reported average effect is the sum of all switchers' effects over the sum of their treatment changes, over all horizons. (Holds when treatments jump once by a common amount; violated when doses change after the switch.)", "quantifier": "all panels", "why_tests_cant": "all panels", "anchors": ["moderndid/didinter/compute_did_multiplegt.py:_compute_ate", "docs/source/background/didinter.rst"]}
{"id": "C87", "title": "Bootstrap replicates treat every draw as a unit", "statement": "A bootstrap replicate is the estimate on the panel made of the drawn units, each draw being a unit of its own. (Violated: copies share an identifier, so lags run across copies.)", "quantifier": "all panels, all draws", "why_tests_cant": "all draws", "anchors": ["moderndid/didinter/bootstrap.py:cluster_bootstrap"]}
{"id": "C88", "title": "trends_lin removes unit-specific linear trends", "statement": "With trends_lin the effect at horizon l is the sum of the first-difference effects at horizons 1..l, i.e. the change net of l times the last pre-switch change. (Violated when some horizon has no estimate: then no horizon is cumulated.)", "quantifier": "all estimates and horizons", "why_tests_cant": "all horizons", "anchors": ["moderndid/didinter/compute_did_multiplegt.py:_apply_trends_lin", "moderndid/didinter/compute_did_multiplegt.py:_compute_did_effects"]}
{"id": "C89", "title": "The data-driven smoothness bound covers the observed pre-trend", "statement": "The upper bound on M proposed from the pre-period coefficients (used as the end of the default grid of the sensitivity analysis) is at least the largest absolute second difference of the pre-period path, including the one that ends at the reference period; in particular it is never negative. (Violated: only signed second differences are used, so a concave pre-trend gives a negative bound; the second difference at the reference period is omitted; the companion constraint matrix for two pre-periods bounds a first difference.)", "quantifier": "all numbers of pre-periods, all coefficient paths, all standard errors", "why_tests_cant": "unbounded dimension and all paths", "anchors": ["moderndid/didhonest/bounds.py:compute_delta_sd_upperbound_m", "moderndid/didhonest/sensitivity.py:create_sensitivity_results_sm"]}
{"id": "C90", "title": "A spline basis has spline_df columns", "statement": "BSpline.basis(complete_basis=True) returns exactly spline_df columns. (Violated for every object holding an extended knot sequence with degree >= 1: 2*degree columns are dropped.)", "quantifier": "all objects, degrees and knot sequences", "why_tests_cant": "all knot sequences and degrees", "anchors": ["moderndid/didcont/spline/bspline.py:BSpline.basis", "moderndid/didcont/spline/base.py"]}
{"id": "C91", "title": "Compiled and interpreted basis dimensions agree", "statement": "For every degree/segment table the compiled basis dimension equals the interpreted one, so installing numba does not change the sieve dimension. (Violated for glp with three or more regressors.)", "quantifier": "all degree/segment lists", "why_tests_cant": "all lists", "anchors": ["moderndid/didcont/numba.py:_two_dimension_update", "moderndid/didcont/utils.py:basis_dimension"]}
{"id": "C92", "title": "Estimator, dimension selection and confidence band use the same sieve", "statement": "For a given number of segments, the confidence-band code and the Lepski selection build the same sieve (same number of columns) as the estimator whose fit they accompany. (Violated: the band uses one more segment than the estimator; the selection step lacks the constant column for additive and glp bases.)", "quantifier": "every basis type, number of regressors, degree and number of segments", "why_tests_cant": "all configurations", "anchors": ["moderndid/didcont/npiv/cck_ucb.py", "moderndid/didcont/npiv/lepski.py", "moderndid/didcont/npiv/estimators.py"]}
{"id": "C93", "title": "Derivative design matrix is the derivative of the design matrix", "statement": "With exactly one differentiated regressor, each column of the derivative model matrix is the partial derivative of the corresponding column of the level model matrix, for any number of regressors. (Violated for additive bases with two or more regressors: the blocks of the other regressors keep their levels instead of zero.)", "quantifier": "all rows, all numbers of regressors and basis functions, any additive derivative operator", "why_tests_cant": "all bases", "anchors": ["moderndid/didcont/npiv/prodspline.py:prodspline", "moderndid/didcont/npiv/estimators.py"]}
{"id": "C94", "title": "Evaluation outside the boundary knots continues the boundary polynomial", "statement": "Outside the boundary knots the basis is evaluated as the Taylor continuation of the boundary polynomial, so a spline that is constant near the boundary is continued as that constant. (Violated: every term is divided by (degree+1-deriv)! rather than its own factorial; only the highest derivative is continued correctly.)", "quantifier": "all degrees, derivative orders, boundary derivatives, coefficients and distances", "why_tests_cant": "all splines and points", "anchors": ["moderndid/didcont/npiv/gsl_bspline.py"]}
{"id": "C95", "title": "Two-period estimators pair pre and post outcomes of the same unit", "statement": "For drdid/ordid/ipwdid on panel data, entry k of the post, pre, treatment and weight arrays belongs to one unit, no unit enters twice, n_units is their number and the units used are exactly those observed once in each period, whatever duplicates or gaps the data contain.", "quantifier": "all panels with two periods in any row order", "why_tests_cant": "all row orders, duplicates and gaps", "anchors": ["moderndid/core/preprocess/transformers.py: PrePostPanelBalancer, PrePostInvarianceChecker", "moderndid/core/preprocess/builders.py:_build_two_period_did_data"]}
{"id": "C96", "title": "Two-period ddd pairs pre and post outcomes of the same unit", "statement": "ddd with two periods subtracts from each unit's post outcome its own pre outcome. (Proved when no unit appears twice in a period; violated otherwise: two misdated rows pass all checks and shift the pairing of all units in between.)", "quantifier": "all panels with two periods in any row order", "why_tests_cant": "all row orders, duplicates and gaps", "anchors": ["moderndid/core/preprocess/transformers.py: DDDPanelBalancer, DDDPostIndicatorCreator", "moderndid/core/preprocess/builders.py:_build_ddd_data"]}
{"id": "C97", "title": "Minimum subgroup size in ddd", "statement": "Preprocessing of the two-period ddd succeeds only if each of the four subgroups has at least five units. (Violated for subgroups with no unit at all, which the check never sees.)", "quantifier": "all panels", "why_tests_cant": "all panels", "anchors": ["moderndid/core/preprocess/transformers.py: DDDSubgroupCreator", "moderndid/core/preprocess/utils.py:validate_subgroup_sizes"]}
{"id": "C98", "title": "cont_did cells compare untreated units over the right change", "statement": "In every (cohort, period) cell each comparison unit is untreated, and outside its anticipation window, in both periods compared, and each unit's outcome change is its outcome in the evaluated period minus its outcome in the base period. (Holds for the varying base without anticipation; violated: with the universal base units treated between the evaluated and the base period serve as comparisons, pre-treatment cells have no outcome changes at all, and anticipation of comparison units is ignored.)", "quantifier": "all panels, cohorts, periods, base-period and control-group options", "why_tests_cant": "all panels and cells", "anchors": ["moderndid/didcont/cont_did.py: cont_two_by_two_subset, cont_did_acrt", "moderndid/core/preprocess/utils.py: get_first_difference"]}
{"id": "C99", "title": "cont_did cell estimates", "statement": "Whatever the spline basis, a cell's overall ATT is the cohort's mean outcome change minus the comparison mean change, the ATT and ACRT curves average over the cohort's own doses to the overall ATT and ACRT, the curve is exact when the true dose response lies in the spline space, and the cell's influence values sum to zero.", "quantifier": "all outcome changes, doses, spline bases", "why_tests_cant": "all data sets and bases", "anchors": ["moderndid/didcont/cont_did.py: cont_did_acrt"]}
{"id": "C100", "title": "ACRT standard errors do not depend on comparison units", "statement": "The influence value reported for the ACRT of a cell is the derivative of the estimate in the unit's weight, so that the standard error of the slope, which uses treated units only, does not change when comparison units are added. (Violated: the value is too small by the factor treated units / units in the cell.)", "quantifier": "all cells", "why_tests_cant": "all data", "anchors": ["moderndid/didcont/cont_did.py: cont_did_acrt", "moderndid/didcont/estimation/process_panel.py: _process_pte_cell"]}
{"id": "C101", "title": "Overall ATT standard error of cont_did accounts for comparison units", "statement": "The influence function reported with the overall ATT of a dose result is that of the ATT: comparison units contribute their deviation from the comparison mean. (Violated: the ACRT influence is used for both; comparison outcomes never enter.)", "quantifier": "all cells and data", "why_tests_cant": "all data", "anchors": ["moderndid/didcont/estimation/process_dose.py: process_dose_gt", "moderndid/didcont/cont_did.py: cont_did_acrt"]}
{"id": "C102", "title": "Overall weights of cont_did", "statement": "The weights combining cells into overall effects are nonnegative, sum to one, are zero before treatment, and give each cohort its share among treated units spread evenly over its post-treatment periods.", "quantifier": "all period lists, cohort lists and cohort shares", "why_tests_cant": "all lists and shares", "anchors": ["moderndid/didcont/estimation/process_aggte.py: overall_weights, safe_normalize"]}
{"id": "C103", "title": "Cells without results do not bias overall effects", "statement": "If some cells cannot be estimated, overall effects are averages of the remaining cells, as the dose curves are. (Violated: overall effects are sums with unadjusted weights, so every failed cell pulls them towards zero.)", "quantifier": "all weights, effects and patterns of failed cells", "why_tests_cant": "all patterns", "anchors": ["moderndid/didcont/estimation/process_dose.py: process_dose_gt, _weighted_combine_arrays"]}
{"id": "C104", "title": "Influence of estimated cohort shares in cont_did event studies", "statement": "The influence term for estimating the aggregation weights is the derivative of the weights in each unit's weight. (Violated: it is that derivative times the share of treated units.)", "quantifier": "all cohort distributions, weights and cell selections", "why_tests_cant": "all distributions", "anchors": ["moderndid/didcont/estimation/process_aggte.py: weight_influence_function_from_att_indices, weight_influence_function_from_groups"]}
{"id": "C105", "title": "Event-study levels of cont_did are average effects", "statement": "The event-study level effect of a cell is the mean outcome change of the cohort minus that of the comparison units. (Violated: the dose is used as the treatment indicator, so units are weighted by their dose; correct when all doses are equal.)", "quantifier": "all doses and outcome changes", "why_tests_cant": "all data", "anchors": ["moderndid/didcont/estimation/estimators.py: pte_attgt", "moderndid/didcont/cont_did.py: cont_two_by_two_subset"]}
{"id": "C106", "title": "Cell influence values reach the right units", "statement": "Row u of the influence matrix of cont_did holds the influence of unit u in every cell. (Holds if polars' unique() returns ids in increasing order, which its documentation does not promise; violated for the order of first appearance.)", "quantifier": "all id sets, cells and id orders", "why_tests_cant": "the order depends on the polars version and data", "anchors": ["moderndid/didcont/cont_did.py: cont_two_by_two_subset", "moderndid/didcont/estimation/process_panel.py: compute_pte"]}
{"id": "C107", "title": "Block bootstrap resamples whole units", "statement": "A bootstrap sample contains one new unit per draw; each new unit carries exactly the rows of the drawn unit, and a unit drawn twice becomes two distinct units.", "quantifier": "all panels and all random draws", "why_tests_cant": "all draws", "anchors": ["moderndid/didcont/estimation/bootstrap.py: block_boot_sample"]}
{"id": "C108", "title": "setup_pte considers every treated cohort", "statement": "The cohorts set up for estimation are exactly the treated cohorts that are observed periods. (Holds when never-treated units are coded 0; violated when they are coded inf or absent: the earliest cohort is dropped.)", "quantifier": "all cohort columns and period lists", "why_tests_cant": "all codings", "anchors": ["moderndid/didcont/estimation/process_panel.py: setup_pte"]}
{"id": "C109", "title": "Influence function of the ATT curve", "statement": "The influence function of the ATT curve is its derivative in each unit's weight and each treated unit's contribution is attached to that unit. (Treated contributions are right when every treated unit has a nonzero ACRT influence; violated: a zero influence shifts contributions to other units, and comparison units contribute nothing.)", "quantifier": "all cells, doses and bases", "why_tests_cant": "all data", "anchors": ["moderndid/didcont/estimation/process_dose.py: _compute_dose_influence_functions"]}
{"id": "C110", "title": "A weighted bootstrap replicate is the estimator refitted with reweighted data", "statement": "For the two-period IPW (standardised, panel and repeated cross-sections; Horvitz–Thompson, panel) and outcome-regression estimators, each weighted-bootstrap replicate equals the point estimate the same estimator reports when every observation's sampling weight is multiplied by its bootstrap draw.", "quantifier": "all data, sampling weights, bootstrap draws and trimming levels", "why_tests_cant": "tests look at spread of random replicates; equality must hold for every draw vector", "anchors": ["moderndid/drdid/bootstrap/boot_panel.py: wboot_std_ipw_panel, wboot_ipw_panel, wboot_reg_panel", "moderndid/drdid/bootstrap/boot_std_ipw_rc.py: wboot_std_ipw_rc", "moderndid/drdid/bootstrap/boot_reg_rc.py: wboot_reg_rc"]}
{"id": "C111", "title": "A bootstrap replicate of the improved estimators is a refit", "statement": "Each weighted-bootstrap replicate of the improved doubly robust estimators equals the estimator refitted with weights multiplied by the draws. (Holds whenever no observation is trimmed; violated with trimming: the replicate trims differently from the estimator.)", "quantifier": "all data, weights, draws and trimming levels", "why_tests_cant": "all draws and all propensity scores", "anchors": ["moderndid/drdid/bootstrap/boot_panel.py: wboot_drdid_imp_panel", "moderndid/drdid/bootstrap/boot_rc_ipt.py: wboot_drdid_ipt_rc1, wboot_drdid_ipt_rc2"]}
{"id": "C112", "title": "Unit draws reproduce the traditional doubly robust estimate", "statement": "With every draw equal to one, the weighted-bootstrap replicate of the traditional doubly robust estimators equals the reported estimate. (Violated: the replicates regress outcomes with odds weights, the estimators with sampling weights.)", "quantifier": "all data with draws equal to one", "why_tests_cant": "tests compare magnitudes only", "anchors": ["moderndid/drdid/bootstrap/boot_panel.py: wboot_dr_tr_panel", "moderndid/drdid/bootstrap/boot_rc.py: wboot_drdid_rc1, wboot_drdid_rc2"]}
{"id": "C113", "title": "Bootstrap of the Horvitz–Thompson estimator with repeated cross-sections", "statement": "Each weighted-bootstrap replicate of the Horvitz–Thompson IPW estimator with repeated cross-sections equals its refit with weights multiplied by the draws. (Holds when the bootstrap weights average one and nothing is trimmed; violated otherwise: the draws are not renormalised, so scaling them changes the replicate, even its sign.)", "quantifier": "all data and draws", "why_tests_cant": "all draws", "anchors": ["moderndid/drdid/bootstrap/boot_ipw_rc.py: wboot_ipw_rc", "moderndid/drdid/estimators/ipw_did_rc.py: ipw_did_rc"]}
{"id": "C114", "title": "The two-way fixed effects coefficient is a difference in differences", "statement": "With panel data and time-constant covariates the TWFE estimate equals the weighted mean change of treated units minus that of comparison units, whatever the covariates; with repeated cross-sections and no covariates it equals the four-mean difference in differences.", "quantifier": "all data, weights and covariates for which the regression is determined", "why_tests_cant": "identity over all data", "anchors": ["moderndid/drdid/estimators/twfe_did_panel.py: twfe_did_panel", "moderndid/drdid/estimators/twfe_did_rc.py: twfe_did_rc"]}
{"id": "C115", "title": "Unit constants cancel", "statement": "Adding a unit-specific constant to both outcomes of a unit changes no panel estimate and no panel standard error. (Holds for the estimators and their influence functions and for the TWFE estimate; violated for the analytic TWFE standard error, which treats the two rows of a unit as independent.)", "quantifier": "all panel data and all unit constants", "why_tests_cant": "all constants", "anchors": ["moderndid/drdid/estimators/*_panel.py", "moderndid/drdid/estimators/twfe_did_panel.py: twfe_did_panel"]}
{"id": "C116", "title": "TWFE multiplier bootstrap", "statement": "Each multiplier-bootstrap replicate of the TWFE panel estimate is the draw-weighted mean over units of the influence function of the difference in mean changes.", "quantifier": "all data and draws", "why_tests_cant": "all draws", "anchors": ["moderndid/drdid/bootstrap/boot_mult.py: mboot_twfep_did", "moderndid/drdid/estimators/twfe_did_panel.py: twfe_did_panel"]}
{"id": "C117", "title": "Both rows of a unit share the unit's bootstrap draw", "statement": "When a panel is stacked into two rows per unit, both rows of a unit receive that unit's bootstrap draw. (Holds for the multiplier bootstrap; violated for the weighted TWFE bootstrap: the draws are repeated element by element while the data are stacked block by block.)", "quantifier": "all numbers of units and draws", "why_tests_cant": "random draws hide the pairing", "anchors": ["moderndid/drdid/bootstrap/boot_panel.py: wboot_twfe_panel", "moderndid/drdid/bootstrap/boot_mult.py: mboot_twfep_did"]}
{"id": "C118", "title": "Calibrated propensity scores balance the covariates", "statement": "When the calibration converges (its gradient vanishes), the odds-weighted comparison totals of every covariate equal the treated totals, hence with a constant the reweighted comparison means equal the treated means; this also holds for columns dropped as collinear; conversely balance makes the gradient vanish.", "quantifier": "all data, weights and coefficients with indices inside the clipping range", "why_tests_cant": "equivalence over all data", "anchors": ["moderndid/drdid/propensity/pscore_ipt.py: calculate_pscore_ipt, _loss_ps_cal, _remove_collinear_columns"]}
{"id": "C119", "title": "The calibration objective is what the optimiser is told it is", "statement": "The gradient and Hessian handed to the optimiser are the derivatives of the value; a point with zero gradient minimises the value; the balancing coefficients are unique when the weighted comparison rows have full rank.", "quantifier": "all data, nonnegative weights, coefficients and directions inside the clipping range", "why_tests_cant": "calculus over all data", "anchors": ["moderndid/drdid/propensity/pscore_ipt.py: _loss_ps_cal"]}
{"id": "C120", "title": "The fallback solves the same problem", "statement": "The fallback objective has correct derivatives, its stationary points minimise it, and they are the balancing scores. (Holds with unit weights; violated with sampling weights: it balances weighted comparisons against the unweighted sample, so the scores do not balance and change when all weights are rescaled.)", "quantifier": "all data, weights, coefficients", "why_tests_cant": "fallback runs only when the first optimiser fails", "anchors": ["moderndid/drdid/propensity/pscore_ipt.py: _loss_ps_ipt"]}
{"id": "C121", "title": "Weighted quantile", "statement": "The weighted q-quantile lies within the data, has at most the fraction q of the weight below it and at least q up to it, follows changes of units, ignores the scale of the weights and the order of the rows. (Violated: fewer than q may lie at or below it — the median of 1, 2, 3 is 3/2 — and with tied values the row order matters.)", "quantifier": "all values, weights and q", "why_tests_cant": "all data", "anchors": ["moderndid/drdid/propensity/pscore_ipt.py: _weighted_quantile"]}
{"id": "C122", "title": "Quantile constraints apply to the requested columns", "statement": "The design used for the calibrated score consists of the covariates followed by, for every requested variable, the indicators of its quantiles. (Holds when no column is collinear; violated otherwise: indices then refer to the reordered remaining columns.)", "quantifier": "all designs, requests and weights", "why_tests_cant": "all designs", "anchors": ["moderndid/drdid/propensity/pscore_ipt.py: _add_quantile_constraints, _remove_collinear_columns"]}
{"id": "C123", "title": "Distributed att_gt estimates the same cells", "statement": "att_gt on a Dask or Spark frame enumerates the (group, period) cells in the order of the single-machine run and gives each the same base period; a cell is reported as zero exactly when it is its own universal base, and left out exactly when no base period exists.", "quantifier": "all period lists, cohorts, anticipation values and both base period modes", "why_tests_cant": "all calendars", "anchors": ["moderndid/dask/_did_mp.py: dask_att_gt_mp", "moderndid/spark/_did_mp.py", "moderndid/did/compute_att_gt.py: run_att_gt_estimation"]}
{"id": "C124", "title": "Distributed att_gt compares the same units", "statement": "A unit is treated, comparison or left out of a distributed cell exactly as on one machine. (Holds without anticipation and with never-treated units coded 0; violated with anticipation, where units about to be treated are comparisons, and with never-treated units coded inf or treated after the last period, which are dropped.)", "quantifier": "all cohorts, cells and codings", "why_tests_cant": "all data", "anchors": ["moderndid/dask/_did_streaming.py: prepare_did_cell_partitions", "moderndid/dask/_utils.py: prepare_cohort_wide_pivot", "moderndid/distributed/_did_partition.py"]}
{"id": "C125", "title": "Estimates are shown with their own influence values", "statement": "In a distributed att_gt result the standard error of an estimate comes from that cell's influence values. (Holds when no cell fails; violated whenever a computed cell fails and a later one is reported.)", "quantifier": "all sequences of cells and failures", "why_tests_cant": "all failure patterns", "anchors": ["moderndid/dask/_did_mp.py: dask_att_gt_mp"]}
{"id": "C126", "title": "Influence values are stored with their unit", "statement": "Whatever order partitions finish in, the influence value of a unit is stored in the unit's row, scaled by total over cell size, and all other rows are 0. (Violated for repeated cross-sections: values are stored by position within the cell, so cells sharing no observation look correlated; single standard errors are unaffected.)", "quantifier": "all partitions, completion orders, units and values", "why_tests_cant": "all schedules", "anchors": ["moderndid/dask/_did_streaming.py: streaming_did_cell_single_control, streaming_did_rc_cell_single_control", "moderndid/distributed/_did_partition.py"]}
{"id": "C127", "title": "Placement of rows in partitions does not matter", "statement": "Whether a cell is estimated does not depend on how its rows are spread over partitions. (Holds on Spark; violated on Dask: an empty first partition makes the cell missing.)", "quantifier": "all placements", "why_tests_cant": "all partitionings", "anchors": ["moderndid/dask/_did_streaming.py: streaming_did_cell_single_control", "moderndid/spark/_did_streaming.py"]}
{"id": "C128", "title": "Distributed att_gt uses base-period covariates", "statement": "A cell uses the covariates of its base period, as on one machine. (Violated: not-yet-treated cells use the period of the cell, never-treated cells the earliest period of the cohort.)", "quantifier": "all calendars and cells", "why_tests_cant": "all data", "anchors": ["moderndid/dask/_utils.py: prepare_cohort_wide_pivot", "moderndid/dask/_did_streaming.py: prepare_did_cell_partitions", "moderndid/did/compute_att_gt.py: estimate_did"]}
{"id": "C129", "title": "Repeated pooled comparison is harmless", "statement": "With repeated cross-sections and several not-yet-treated cohorts, where the pooled comparison is estimated once per cohort and combined, the reported estimate, influence values and standard error are those of the pooled comparison.", "quantifier": "all estimates, influence values, numbers of cohorts and generalized inverses", "why_tests_cant": "all data", "anchors": ["moderndid/dask/_did_mp.py: _process_did_cohort_cells_rc", "moderndid/didtriple/estimators/ddd_mp.py: _gmm_aggregate"]}
{"id": "C130", "title": "Units of an unbalanced panel", "statement": "In a distributed run with an unbalanced panel a unit enters a cell exactly when it is observed in the two periods of the cell. (Holds with not-yet-treated comparisons and for balanced panels; violated with never-treated comparisons, where a unit must be observed in every period any cell of the cohort uses.)", "quantifier": "all observation patterns and cells", "why_tests_cant": "all patterns", "anchors": ["moderndid/dask/_utils.py: prepare_cohort_wide_pivot", "moderndid/dask/_did_streaming.py: prepare_did_cell_partitions"]}
{"id": "C131", "title": "Bootstrap standard errors and units", "statement": "Multiplying the outcome by c multiplies a bootstrap standard error by |c|; changing its sign, the order of the draws or the order of the units changes nothing; a reported standard error is never negative and exceeds the reporting tolerance. (Violated for small scales: an absolute cut-off makes every standard error missing in suitable units.)", "quantifier": "all influence values, multiplier draws, numbers of draws and scale factors", "why_tests_cant": "all draws and scales", "anchors": ["moderndid/did/mboot.py: mboot", "moderndid/didtriple/bootstrap/mboot_ddd.py: mboot_ddd", "moderndid/did/att_gt.py: att_gt"]}
{"id": "C132", "title": "Simultaneous critical value", "statement": "With the reported simultaneous critical value at least floor((B-1)(1-alpha))+1 of the B bootstrap draws lie inside the band in all cells at once, and no smaller value puts more than that many inside; the value does not depend on units or signs of the cells nor on the order of the draws, and a band for fewer cells is never wider.", "quantifier": "all draw matrices, levels and collections of cells", "why_tests_cant": "all draw matrices", "anchors": ["moderndid/did/mboot.py: mboot", "moderndid/didtriple/bootstrap/mboot_ddd.py: mboot_ddd"]}
{"id": "C133", "title": "Cells that affect the band of others", "statement": "Cells without any variation do not affect the critical value of the others. The critical value is missing exactly if no cell varies or some varying cell has equal quartiles. (So one such cell, e.g. one that rests on a single unit, removes the value for every cell: att_gt then reports no bands, aggte falls back to pointwise ones: violated.)", "quantifier": "all draw matrices and column orders", "why_tests_cant": "all draw matrices", "anchors": ["moderndid/did/mboot.py: mboot", "moderndid/did/att_gt.py: att_gt", "moderndid/did/compute_aggte.py: _batched_se"]}
{"id": "C134", "title": "Bands are not narrower than intervals", "statement": "A simultaneous band is never narrower than the pointwise interval. (Holds for the triple-difference aggregations; violated in att_gt, aggte and the multi-period triple difference, which use any finite bootstrap value.)", "quantifier": "all bootstrap outcomes", "why_tests_cant": "all bootstrap outcomes", "anchors": ["moderndid/didtriple/compute_agg_ddd.py: _batched_bootstrap", "moderndid/didtriple/compute_agg_ddd.py: _get_crit_val", "moderndid/did/compute_aggte.py: _batched_se", "moderndid/did/att_gt.py: att_gt", "moderndid/didtriple/estimators/ddd_mp.py: att_gt"]}
{"id": "C135", "title": "Overall standard error from stored draws", "statement": "The overall standard error of a triple-difference event study or calendar aggregation equals the one the bootstrap would report for the overall influence function under the same multipliers. (In the cells themselves, the bootstrap value is replaced by an analytical one that ignores clusters when a cell has several comparison cohorts: violated.)", "quantifier": "all influence matrices, multipliers, weights and masks", "why_tests_cant": "all draws and weights", "anchors": ["moderndid/didtriple/compute_agg_ddd.py: _overall_se_from_bres", "moderndid/didtriple/estimators/ddd_mp.py: att_gt"]}
{"id": "C136", "title": "Wald pre-test", "statement": "The pre-test statistic is non-negative, zero exactly when all pre-treatment estimates are zero, independent of the solver and of the units of the estimates, and uses exactly the cells before treatment that have a standard error. (Violated under anticipation: cells inside the anticipation window enter.)", "quantifier": "all influence matrices, estimates and lists of cells", "why_tests_cant": "all matrices", "anchors": ["moderndid/did/att_gt.py: att_gt"]}
{"id": "C137", "title": "Standard errors do not depend on how periods are numbered", "statement": "In did_multiplegt, adding the same integer to every period (and so to every first-switch period) changes neither estimates nor unit influence values nor standard errors. Holds when the first period is numbered 1 or higher before and after. (Violated otherwise: with periods numbered 0 or lower rows are dropped from the variance but not from the estimate; when no period exceeds the horizon the standard error is 0.)", "quantifier": "all panels on a common grid of periods, weights, options, horizons, effects and placebos, with or without clusters, and all shifts", "why_tests_cant": "tests use one numbering of the periods", "anchors": ["moderndid/didinter/compute_did_multiplegt.py: _compute_did_effects", "moderndid/core/preprocess/transformers.py: DIDInterDataPreparer"]}
{"id": "C138", "title": "Common shocks cancel in did_multiplegt", "statement": "Without covariates, unit constants and shocks common to a period and a baseline cell change neither the estimate nor any influence value nor the standard error. With clusters this holds when every period and cell with switchers involves at least two clusters. (Violated when a cell is one cluster.)", "quantifier": "all panels on a common grid, positive weights, missing outcomes, options, horizons, effects and placebos, all unit constants and shocks", "why_tests_cant": "all shocks and panels", "anchors": ["moderndid/didinter/variance.py: compute_cohort_dof, compute_control_dof, compute_union_dof, compute_e_hat, compute_dof_scaling", "moderndid/didinter/compute_did_multiplegt.py: _compute_did_effects"]}
{"id": "C139", "title": "Units of measurement in did_multiplegt", "statement": "Multiplying the outcome by c multiplies every estimate and influence value by c and every standard error by |c|, with or without clusters.", "quantifier": "all panels, options, horizons and scale factors", "why_tests_cant": "all scales", "anchors": ["moderndid/didinter/compute_did_multiplegt.py: _compute_did_effects", "moderndid/didinter/variance.py: compute_clustered_variance"]}
{"id": "C140", "title": "Clustered standard errors of did_multiplegt", "statement": "The clustered standard error is the documented square root of the sum over clusters of squared summed influence values divided by the number of units; it does not depend on cluster names; with every unit its own cluster the formula is the unclustered one. (Violated: a single cluster gives the unclustered value; units without a cluster are dropped but counted; clustering on the unit itself changes the residuals because switchers count as one more cluster of the controls.)", "quantifier": "all influence values and cluster assignments", "why_tests_cant": "all assignments", "anchors": ["moderndid/didinter/variance.py: compute_clustered_variance, compute_control_dof", "moderndid/didinter/compute_did_multiplegt.py: _compute_did_effects"]}
{"id": "C141", "title": "Covariance matrix behind the joint tests", "statement": "The diagonal of the covariance matrix used by the placebo and equality tests is determined by the reported standard error and the mean influence value, and scales with the normalisation. (Violated: it is G/(G-1) times the squared standard error when influence values sum to zero, and it ignores clusters.)", "quantifier": "all influence values, numbers of units and normalisers", "why_tests_cant": "all influence values", "anchors": ["moderndid/didinter/compute_did_multiplegt.py: _compute_did_effects", "moderndid/didinter/variance.py: compute_joint_test"]}
{"id": "C142", "title": "Normalised standard errors are not negative", "statement": "A reported standard error is at least 0 and confidence bounds are ordered. Holds when the normaliser is not negative. (Violated for a negative normaliser.)", "quantifier": "all influence values, clusters and normalisers", "why_tests_cant": "all signs of the normaliser", "anchors": ["moderndid/didinter/compute_did_multiplegt.py: _compute_did_effects, _compute_delta_d"]}
{"id": "C143", "title": "Standard error of the average total effect", "statement": "It is the standard error of the influence values combined with the same weights as the estimate; with one horizon it is the effect's standard error over the treatment change. (Violated: clusters are ignored; one requested horizon without switchers replaces it by a root mean square; with trends_lin the effect is reported, from uncumulated effects, although the call says it is not computed.)", "quantifier": "all influence values, switcher counts, numbers of horizons", "why_tests_cant": "all combinations of horizons", "anchors": ["moderndid/didinter/compute_did_multiplegt.py: _compute_ate, _apply_trends_lin", "moderndid/didinter/did_multiplegt.py: did_multiplegt"]}
{"id": "C144", "title": "Covariates absorb what they explain", "statement": "With covariates in xformla, adding unit constants and any fixed linear combination of the covariates to the outcome changes no estimated effect; an outcome that consists of these alone has effect 0. Holds for effects when covariates are observed and each baseline level has an identified regression. (Violated for placebos, which use the wrong covariate change, and for baseline levels with fewer than two never-switchers, where covariates are silently ignored.)", "quantifier": "all panels, weights, covariates, coefficients, horizons", "why_tests_cant": "all linear combinations", "anchors": ["moderndid/didinter/controls.py: compute_control_coefficients, apply_control_adjustment", "moderndid/didinter/compute_did_multiplegt.py: _compute_did_effects"]}
{"id": "C145", "title": "Covariate-adjusted effects and nuisance levels", "statement": "Adjusted outcome changes do not depend on the origin from which a covariate is measured in each unit. (Violated for the outcome: a shock common to everybody in a period, which cancels without covariates, changes the adjusted effects, because the regression has neither intercept nor period effects.)", "quantifier": "all panels, covariates, origins; witness for the violation", "why_tests_cant": "all origins and shocks", "anchors": ["moderndid/didinter/controls.py: compute_control_coefficients, apply_control_adjustment"]}
{"id": "C146", "title": "First-stage uncertainty of covariate coefficients", "statement": "The variance adjustment for estimated covariate coefficients should depend on the regression's inverse moments and each unit's data. (Violated: it is the same multiple of the unit's number of rows for every unit, whatever the inverse moment matrix; on a panel with equal row counts it moves all influence values by one constant, and it makes the standard error depend on covariate parts of the outcome that change no estimate.)", "quantifier": "all panels, covariates, levels, inverse moment matrices", "why_tests_cant": "all data", "anchors": ["moderndid/didinter/controls.py: compute_control_influence, compute_variance_adjustment"]}
{"id": "C147", "title": "Test of equal effects", "statement": "The statistic depends neither on the order of the horizons nor on the solution chosen for the linear system, nor on a common level of the effects or the unit of measurement; equal effects give 0; it is not negative for a positive semidefinite covariance matrix. (Violated in availability: one requested horizon without switchers suppresses the test.)", "quantifier": "all estimates, symmetric covariance matrices, orders of horizons", "why_tests_cant": "all matrices and orders", "anchors": ["moderndid/didinter/compute_did_multiplegt.py: _test_effects_equality"]}
{"id": "C148", "title": "Influence values of the triple difference are derivatives of its estimate", "statement": "For ddd_panel (methods dr, reg and ipw) and ddd_rc (methods reg and ipw): when a call succeeds, the influence-function value it reports for a unit (observation) equals the derivative of the reported ATT with respect to that unit's sampling weight, with every regression and propensity-score fit redone at the new weights and all three comparisons, their n/n_c factors and the weight normalisation included; calls with nearby weights also succeed. (Violated for ddd_rc with the default method dr: the pre-period regression correction has the wrong sign, so the reported value differs from the derivative by exactly twice that correction, summed over the comparisons with their signs and factors.)", "quantifier": "all data sets, subgroups, covariates, nonnegative weights, units and the three methods, with exact smooth fits and no score at the cap or trimming level", "why_tests_cant": "a derivative over all perturbations of all data sets; tests compare the standard error with one simulation", "anchors": ["moderndid/didtriple/nuisance.py:compute_all_did", "moderndid/didtriple/nuisance.py:_compute_inf_func", "moderndid/didtriple/nuisance_rc.py:_compute_inf_func_rc", "moderndid/didtriple/estimators/ddd_panel.py:ddd_panel", "moderndid/didtriple/estimators/ddd_rc.py:ddd_rc"]}
{"id": "C149", "title": "The bias used by the fixed-length interval is the worst case over Delta^SD(M)", "statement": "For any covariance matrix, post-treatment weights and bound M, the value returned by maximize_bias(h) bounds the absolute bias of the estimator it returns for every violation path whose second differences are at most M; it is attained by some such path, and no other estimator with the same post-treatment weights and standard deviation at most h has a smaller worst case. (Violated when sum_k k*l_k < 0, e.g. weights (1,-1): the reported bias exceeds the worst case by 2M|sum_k k*l_k|, so the interval for -theta is not the mirror image of the interval for theta.)", "quantifier": "all numbers of periods, weights, covariance matrices, h, M >= 0, violation paths and treatment effects; all competing linear estimators", "why_tests_cant": "a supremum over an infinite set of paths and a minimum over all estimators", "anchors": ["moderndid/didhonest/fixed_length_ci.py:maximize_bias", "moderndid/didhonest/fixed_length_ci.py:_weights_to_l"]}
{"id": "C150", "title": "The variance constraint of the fixed-length interval is the variance of the returned estimator", "statement": "The quadratic form constrained in maximize_bias and minimised in minimize_variance equals the variance of optimal_vec' beta_hat; get_min_bias_h gives a feasible point of least worst-case bias, so the search range is ordered and the program is solvable exactly from the minimal standard deviation on; a larger h never raises the bias; within the range the constraint binds, so the half-length is computed with the actual standard deviation.", "quantifier": "all numbers of periods, covariance matrices with symmetric cross blocks, weights and h", "why_tests_cant": "for-all statement over matrices and optimisation problems", "anchors": ["moderndid/didhonest/fixed_length_ci.py:maximize_bias", "moderndid/didhonest/fixed_length_ci.py:minimize_variance", "moderndid/didhonest/fixed_length_ci.py:affine_variance", "moderndid/didhonest/fixed_length_ci.py:get_min_bias_h"]}
{"id": "C151", "title": "Fixed-length intervals ignore linear trends and move with the effects", "statement": "Adding a linear trend that is zero in the reference period to the event-study coefficients leaves the interval unchanged; adding effects to the post-treatment coefficients moves both ends by exactly the weighted sum of those effects.", "quantifier": "all coefficients, slopes, effects, weights and numbers of periods", "why_tests_cant": "invariance over all inputs", "anchors": ["moderndid/didhonest/fixed_length_ci.py:compute_flci"]}
{"id": "C152", "title": "folded_normal_quantile is the quantile of |N(mu, sd^2)|", "statement": "For 0 < p < 1 and sd > 0 the bracketing loop ends, the root exists and is unique, and the value r returned satisfies P(|N(mu, sd^2)| <= r) = p; it does not depend on the sign of mu, rises with p and with |mu|, and equals sd times the value for mu/sd and unit standard deviation.", "quantifier": "all levels, means and standard deviations", "why_tests_cant": "real-valued inputs; termination of a loop for every input", "anchors": ["moderndid/didhonest/fixed_length_ci.py:folded_normal_quantile", "moderndid/didhonest/fixed_length_ci.py:_folded_normal_cdf"]}
{"id": "C153", "title": "compute_flci covers the parameter with probability at least 1 - alpha", "statement": "If the coefficients are jointly normal with the supplied covariance, an interval returned by compute_flci covers l' tau_post with probability at least 1 - alpha for all effects and all violations with second differences of at most M, whether the search or the grid fallback produced it; with a non-negative weighted horizon the probability is exactly 1 - alpha for some violation. The grid fallback returns the smallest half-length of the grid.", "quantifier": "all numbers of periods, covariance matrices, weights, M, alpha, effects, violations and outcomes of the search", "why_tests_cant": "a probability statement over an infinite class of distributions", "anchors": ["moderndid/didhonest/fixed_length_ci.py:compute_flci", "moderndid/didhonest/fixed_length_ci.py:_optimize_flci_params"]}
{"id": "C154", "title": "The golden-section search over h ends and finds the minimum", "statement": "The search returns a value inside the range, ends for every objective (NaN included) when h_min < h_max, and for an objective with a single valley returns a point within half the tolerance of the lowest point. (Violated when rounding puts h_min above h_max, as can happen with a single pre-treatment period where both are equal in exact arithmetic: the tolerance is negative and the loop never ends.)", "quantifier": "all objectives, ranges and numbers of points", "why_tests_cant": "termination and correctness for every function", "anchors": ["moderndid/didhonest/fixed_length_ci.py:_optimize_h_bisection"]}
{"id": "C155", "title": "The truncated-normal critical value is the quantile of the truncated distribution", "statement": "For 0 < p < 1 and sd > 0 the critical value of the conditional tests lies in the truncation interval and leaves exactly the fraction p of its probability to the left; it increases with p; at p <= 0 and p >= 1 it is the end of the interval; an interval of one point gives that point. (Violated for a NaN truncation point: the critical value becomes 0, so every positive moment is rejected whatever the level.)", "quantifier": "all p, means, standard deviations and truncation intervals, finite or not", "why_tests_cant": "continuous quantifier over probabilities and intervals", "anchors": ["moderndid/didhonest/conditional.py:_norminvp_generalized"]}
{"id": "C156", "title": "The truncation points of the conditional tests describe the conditioning event", "statement": "At the inequality with the largest studentised moment the truncation points bracket the statistic; other data with the same residual have the same truncation points, and the same inequality attains the maximum when its statistic lies strictly between them; the residual is uncorrelated with the statistic.", "quantifier": "all numbers of coefficients and inequalities, data, covariance matrices and right-hand sides", "why_tests_cant": "for-all statement over data and matrices", "anchors": ["moderndid/didhonest/arp_no_nuisance.py:test_in_identified_set", "moderndid/didhonest/numba.py:compute_bounds"]}
{"id": "C157", "title": "The conditional test behind the lower bound on M has level alpha", "statement": "test_in_identified_set_max returns for regular moments, and for normal coefficients that satisfy the inequalities with M*d >= 0 it rejects with probability at most alpha; hence the lower bound reported by the grid search exceeds a true M on the grid with probability at most alpha.", "quantifier": "all coefficients, covariance matrices without nearly collinear inequalities, inequalities, levels", "why_tests_cant": "a probability statement over all normal distributions and all parameter values of the null hypothesis", "anchors": ["moderndid/didhonest/conditional.py:test_in_identified_set_max", "moderndid/didhonest/conditional.py:estimate_lowerbound_m_conditional_test"]}
{"id": "C158", "title": "The least-favourable hybrid test has level alpha", "statement": "If the first-stage critical value is exceeded by the largest studentised error with probability at most kappa, test_in_identified_set_lf_hybrid rejects a true null (A beta <= d, d >= 0) with probability at most alpha.", "quantifier": "all normal distributions, inequalities, d >= 0, 0 <= kappa < alpha < 1", "why_tests_cant": "a probability statement over all normal distributions of the null", "anchors": ["moderndid/didhonest/arp_no_nuisance.py:test_in_identified_set_lf_hybrid"]}
{"id": "C159", "title": "The conditional test with homogeneous restrictions has level alpha", "statement": "test_in_identified_set with d = 0 rejects a true null A beta <= 0 with probability at most alpha.", "quantifier": "all normal distributions, inequalities and levels", "why_tests_cant": "a probability statement over all normal distributions of the null", "anchors": ["moderndid/didhonest/arp_no_nuisance.py:test_in_identified_set"]}
{"id": "C160", "title": "The conditional test with a constant right-hand side has level alpha", "statement": "test_in_identified_set rejects a true null A beta <= d with probability at most alpha. (Violated for d > 0: the moment A y - d is compared with truncation points on the scale of A y. For the smoothness restriction with two pre-periods, one post-period, M = 10 and a non-singular covariance matrix the true value is rejected with probability at least 67% at every level.)", "quantifier": "all normal distributions of the null", "why_tests_cant": "a probability over a continuous distribution", "anchors": ["moderndid/didhonest/arp_no_nuisance.py:test_in_identified_set"]}
{"id": "C161", "title": "The conditional confidence interval is the hull of the accepted values and covers", "statement": "compute_arp_ci reports the smallest and largest accepted grid value (NaN exactly if there is none). If the true effect is a grid point and the restriction A delta <= 0 holds, the interval is returned and contains it except with probability at most alpha; the same for the LF hybrid with d >= 0. For the second-difference relative-magnitudes restriction with one post-period, the union over reference differences and signs marks the true effect as accepted except with probability at most alpha.", "quantifier": "all normal distributions, grids, restrictions, numbers of pre-periods", "why_tests_cant": "a coverage probability over all parameter values", "anchors": ["moderndid/didhonest/arp_no_nuisance.py:compute_arp_ci", "moderndid/didhonest/delta/sdrm/sdrm.py:compute_conditional_cs_sdrm"]}
{"id": "C162", "title": "Confidence sets with one post-period are computed around the estimate", "statement": "With one post-period the confidence-set functions return a set, built on a grid around the estimate. (Violated: relative magnitudes always raise an IndexError; the default FLCI hybrid of the smoothness restriction and of its sign variant always raises a ValueError; the LF hybrid of the sign variant and the FLCI hybrid of the second-difference relative-magnitudes variants always raise; the default grid of the smoothness restriction for LF and ARP is centred at zero, so that no effect above M + 20 standard errors is ever contained in the interval, whatever the estimates.)", "quantifier": "all data, options and grid sizes", "why_tests_cant": "for-all statement over data", "anchors": ["moderndid/didhonest/delta/rm/rm.py:compute_conditional_cs_rm", "moderndid/didhonest/delta/sd/sd.py:compute_conditional_cs_sd", "moderndid/didhonest/delta/sd/sdb.py:compute_conditional_cs_sdb", "moderndid/didhonest/arp_no_nuisance.py:compute_arp_ci"]}
{"id": "C163", "title": "The grid search for the ends of a confidence interval with nuisance parameters", "statement": "On a non-empty grid the search ends with a result: no interval exactly if every grid point is rejected; otherwise both reported ends are accepted grid points in order, and the next point outside each end is rejected or does not exist. If the accepted points are contiguous, the reported range is exactly the set of accepted points. (Violated in general: with non-contiguous acceptance the reported range can contain rejected points and leave out accepted ones.)", "quantifier": "all grids and all accept/reject patterns", "why_tests_cant": "for all grid sizes and patterns", "anchors": ["moderndid/didhonest/arp_nuisance.py:_binary_search_ci_bounds"]}
{"id": "C164", "title": "The reparametrisation by the target isolates the target", "statement": "The change of coordinates fails (ValueError) exactly if every weight is below 1e-10; otherwise the inequalities tested at theta with some nuisance vector hold exactly if there are post-treatment effects with l'tau = theta for which the coefficients minus the effects satisfy the restrictions.", "quantifier": "all weight vectors, restriction matrices, bounds, coefficients and values theta", "why_tests_cant": "for all dimensions and matrices", "anchors": ["moderndid/didhonest/arp_nuisance.py:_construct_gamma", "moderndid/didhonest/arp_nuisance.py:compute_arp_nuisance_ci"]}
{"id": "C165", "title": "Decisions of the test with nuisance parameters that hold surely", "statement": "If the estimates satisfy the inequalities for some nuisance value, the conditional test and the least-favourable hybrid (critical value >= 0) never reject and the FLCI hybrid can reject only in its first stage; if the linear program has no solution the test does not reject, and then every mean vector satisfies the inequalities; with regular moments and basic solutions the test always returns a decision.", "quantifier": "all data, covariance matrices, designs, row subsets, levels and correct solvers", "why_tests_cant": "for all matrices and solver outputs", "anchors": ["moderndid/didhonest/arp_nuisance.py:lp_conditional_test"]}
{"id": "C166", "title": "Size of the conditional test with nuisance parameters", "statement": "If y is normal with a mean satisfying the inequalities for some value of the nuisance parameters, the conditional (ARP) test rejects with probability at most alpha.", "quantifier": "all normal laws, designs with regular dual vertices, row subsets, levels, and every solver returning an optimal solution", "why_tests_cant": "a probability over all samples for all null means", "anchors": ["moderndid/didhonest/arp_nuisance.py:lp_conditional_test", "moderndid/didhonest/arp_nuisance.py:_test_delta_lp"]}
{"id": "C167", "title": "Size of the least-favourable hybrid with nuisance parameters", "statement": "If moreover the value of the program at the estimation errors exceeds the first-stage critical value with probability at most kappa, the hybrid rejects with probability at most alpha.", "quantifier": "all normal laws, regular designs, levels 0 <= kappa < alpha < 1", "why_tests_cant": "a probability over all samples for all null means", "anchors": ["moderndid/didhonest/arp_nuisance.py:lp_conditional_test", "moderndid/didhonest/arp_nuisance.py:compute_least_favorable_cv"]}
{"id": "C168", "title": "Size of the FLCI hybrid with nuisance parameters", "statement": "If the first-stage interval rejects with probability at most kappa, the FLCI hybrid rejects with probability at most alpha.", "quantifier": "all normal laws, regular designs, levels 0 <= kappa < alpha < 1, first-stage vectors and bounds", "why_tests_cant": "a probability over all samples for all null means", "anchors": ["moderndid/didhonest/arp_nuisance.py:lp_conditional_test", "moderndid/didhonest/arp_nuisance.py:_compute_flci_vlo_vup"]}
{"id": "C169", "title": "Coverage of the confidence interval with nuisance parameters", "statement": "For a value theta of the target that is compatible with the true coefficients, the test at theta rejects with probability at most alpha; if theta is a grid value, the probability that the accepted grid values are contiguous and the reported interval misses theta is at most alpha, for the conditional test and both hybrids.", "quantifier": "all normal laws of the coefficients, restrictions, weights, grids and levels", "why_tests_cant": "a probability over all samples for all compatible effects", "anchors": ["moderndid/didhonest/arp_nuisance.py:compute_arp_nuisance_ci", "moderndid/didhonest/arp_nuisance.py:_test_theta_accepted", "moderndid/didhonest/numba.py:compute_hybrid_dbar"]}
{"id": "C170", "title": "Size of the test without nuisance parameters (x_t=None)", "statement": "lp_conditional_test with x_t=None rejects true inequalities with probability at most alpha. (Violated: the maximum of the standardised moments is compared with the quantile of one normal variable; with k independent binding inequalities the probability is 1-(1-alpha)^k. It is at most k*alpha, so alpha for a single inequality.)", "quantifier": "all normal laws, row subsets and levels", "why_tests_cant": "a probability over all samples", "anchors": ["moderndid/didhonest/arp_nuisance.py:lp_conditional_test"]}
{"id": "C171", "title": "Grid and length of the confidence interval with nuisance parameters", "statement": "The reported interval lies within the grid and needs at least two grid points; the reported length is the length of the interval extended on both sides by half the distance to the neighbouring grid value (not beyond the grid), hence at least the interval's length; the default grid is suited to the data. (Violated for the last part: the default grid is centred at zero, so that a value further than 20 standard errors from zero is never covered, whatever the estimates.)", "quantifier": "all data, grids and options", "why_tests_cant": "for all data and grid sizes", "anchors": ["moderndid/didhonest/arp_nuisance.py:compute_arp_nuisance_ci"]}
{"id": "C172", "title": "honest_did takes the right coefficients out of the event study", "statement": "For an event study with ascending event times, honest_did runs exactly if the aggregation is dynamic with a matrix of influence functions, there is an estimate before -1, the event times before and those after -1 have no gaps, and the requested event time is one of those after -1. It then analyses the estimates of the event times before -1 followed by those after -1, leaves out the estimate at -1, uses the covariance of the influence functions of the same event times over n^2, and targets the effect at the requested event time. (Violated: a gap next to the reference period is not noticed, so a linear violation is not linear for the analysis.)", "quantifier": "every list of ascending event times with any estimates and influence functions, every requested event time", "why_tests_cant": "tests use a few event studies with a reference period at -1 and no gaps", "anchors": ["moderndid/didhonest/honest_did.py:_honest_did_aggte"]}
{"id": "C173", "title": "Coverage of the original confidence interval", "statement": "The original interval reported next to the sensitivity analysis is centred at the estimate of the target and depends on the post-treatment coefficients only. With jointly normal coefficients it covers the effect with probability exactly 1-alpha if the target is not biased, and with probability at most 1-alpha under any violation of parallel trends.", "quantifier": "every number of periods, weights, covariance matrix with positive variance of the target, level, effects and violation", "why_tests_cant": "a probability over all normal samples and all violations; a simulation estimates it for one design", "anchors": ["moderndid/didhonest/sensitivity.py:construct_original_cs"]}
{"id": "C174", "title": "Rows of the sensitivity tables", "statement": "The tables have one row per value of M (Mbar), in the order given, with that value, the method and the restriction. The bounds are those of the fixed-length interval, or the smallest and the largest accepted grid value of the confidence set for the selected restriction, NaN exactly if no grid value is accepted. The tables raise exactly for two directions, an unknown method (or bound), the linear-trend bound with fewer than three pre-periods, or if a confidence set raises. With documented directions the label identifies the restriction. (Violated: with the fixed-length method a misspelt direction is labelled as the opposite restriction instead of being rejected.)", "quantifier": "every list of values, every combination of method, bound and directions, all grids and accept flags", "why_tests_cant": "the accept pattern is arbitrary and the number of rows unbounded", "anchors": ["moderndid/didhonest/sensitivity.py:create_sensitivity_results_sm", "moderndid/didhonest/sensitivity.py:create_sensitivity_results_rm", "moderndid/didhonest/wrappers.py:DeltaMethodSelector"]}
{"id": "C175", "title": "Default values of M and the grid arguments", "statement": "Without m_vec the smoothness table uses ten equally spaced values from zero up to the standard deviation of the first coefficient (one pre-period) or the data-driven bound (three or more). If both grid limits are given to the relative-magnitude table they are used for every Mbar. (Violated: with exactly two pre-periods the default raises; for a concave pre-trend nine of the ten default values are negative and no violation satisfies the restriction; a single grid limit is ignored.)", "quantifier": "every number of pre-periods, coefficients, standard errors and grid limits", "why_tests_cant": "holds for all coefficient vectors; the defects need particular period counts or trends that the tests do not use", "anchors": ["moderndid/didhonest/sensitivity.py:create_sensitivity_results_sm", "moderndid/didhonest/sensitivity.py:create_sensitivity_results_rm", "moderndid/didhonest/bounds.py:compute_delta_sd_upperbound_m"]}
{"id": "C176", "title": "End-to-end coverage of honest_did under smoothness", "statement": "If an event study with estimates at -2 and 0 is jointly normal around violation plus effect with the covariance given by its influence functions, and the violation vanishes at the reference period and changes its slope by at most M between any two consecutive periods, then the interval honest_did reports for M with the fixed-length method contains the effect at the requested event time with probability at least 1-alpha.", "quantifier": "every event study for which the analysis runs, every effect path, every violation, every M >= 0 and level", "why_tests_cant": "a probability statement over all data-generating processes, violations and effects, through the whole chain from the event study to the interval", "anchors": ["moderndid/didhonest/honest_did.py:_honest_did_aggte", "moderndid/didhonest/sensitivity.py:create_sensitivity_results_sm", "moderndid/didhonest/fixed_length_ci.py:compute_flci"]}
{"id": "C177", "title": "The grid of a sensitivity table contains the effect", "statement": "If one of the confidence sets of which a row is the union accepts the effect with probability at least 1-alpha, the row contains it with that probability. (Violated: the default grid of the smoothness table with the conditional methods is centred at zero, whatever the estimates are, so with M=0 an effect of more than twenty standard deviations is never covered; the default grid of the linear-trend table is built under parallel trends, so with Mbar=0 and a linear pre-trend allowed by the restriction the effect is covered with probability at most one half.)", "quantifier": "every grid, number of pieces and accept pattern; every number of periods, weights, effects and slopes", "why_tests_cant": "the tests check that bounds are returned, not that the grid contains the truth for every effect size and trend", "anchors": ["moderndid/didhonest/sensitivity.py:create_sensitivity_results_rm", "moderndid/didhonest/delta/sd/sd.py:compute_conditional_cs_sd", "moderndid/didhonest/delta/rm/rm.py:compute_conditional_cs_rm", "moderndid/didhonest/delta/sdrm/sdrm.py:compute_conditional_cs_sdrm"]}
{"id": "C178", "title": "Distributed triple-difference cell equals the single-machine one", "statement": "For panel data, however the units of a cell are divided among partitions, whenever the single-machine ddd estimator returns with the same nuisance fits, the distributed computation returns the same ATT and, unit by unit, the same influence values, for dr, reg and ipw. The four subgroups are the documented ones when eligibility is coded 0/1. (Violated: with ipw, when trimming removes every comparison unit, the single-machine estimator raises and the distributed one reports the treated units' before-after change; eligibility coded otherwise than 0/1 silently lands in a wrong subgroup.)", "quantifier": "every division of every cell into partitions, every number of units and covariates, every method, weights, propensity and outcome fits", "why_tests_cant": "the tests compare a few data sets with one partition count; equality must hold for every partitioning and data set", "anchors": ["moderndid/distributed/_ddd_partition.py:_partition_global_stats", "moderndid/distributed/_ddd_partition.py:_partition_compute_ddd_if", "moderndid/dask/_ddd_streaming.py:streaming_cell_single_control", "moderndid/didtriple/estimators/ddd_panel.py:ddd_panel"]}
{"id": "C179", "title": "Distributed triple-difference cell on repeated cross-sections", "statement": "For repeated cross-sections with unit weights, however the observations of a cell are divided among partitions, whenever the single-machine estimator returns with the same nuisance fits, the distributed computation returns the same ATT and influence values, for dr and ipw. (Violated for reg: the distributed estimate of a comparison is the regression estimate plus the change the fitted treated-arm regressions predict over the whole treated group minus the treated group's observed change; the two agree when the treated group has the same average covariates before and after.)", "quantifier": "every division of every cell into partitions, every number of observations and covariates, all propensity and outcome fits satisfying the normal equations", "why_tests_cant": "the tests compare a few data sets; the equality and the exact gap must hold for every data set and partitioning", "anchors": ["moderndid/distributed/_ddd_partition.py:_partition_ddd_rc_global_stats", "moderndid/dask/_ddd_streaming.py:streaming_ddd_rc_cell_single_control", "moderndid/didtriple/estimators/ddd_rc.py:ddd_rc"]}
{"id": "C180", "title": "Not-yet-treated controls on repeated cross-sections, distributed ddd", "statement": "The distributed ddd estimator on repeated cross-sections with not-yet-treated controls returns an estimate for every estimable cell. (Violated: when never-treated units are coded 0 and no cohort is treated after the last period, the call raises TypeError; and whenever two comparison cohorts are present and estimable in a cell it raises, because influence values are indexed by position in the whole cell but stored in an array with one entry per row of the comparison. A comparison goes through exactly when its rows are the first rows of the cell.)", "quantifier": "every data set, cohort structure, base period choice, estimator, row order and partitioning", "why_tests_cant": "no test reaches the branch; the claim is that every such call fails, for every data set and partitioning", "anchors": ["moderndid/dask/_ddd_mp.py:_process_cohort_cells_rc", "moderndid/dask/_ddd_streaming.py:streaming_ddd_rc_cell_multi_control", "moderndid/dask/_ddd_streaming.py:_ddd_rc_single_from_parts_collect", "moderndid/spark/_ddd_mp.py:_process_cohort_cells_rc"]}
{"id": "C181", "title": "Results do not depend on where the rows are placed", "statement": "On Spark the comparison cohorts that enter a distributed ddd cell, their estimates and the never-treated estimates depend only on the rows of the cell, not on how they are partitioned; on Dask this holds when the first partition contains a unit of the treated cohort. (Violated on Dask: a comparison cohort that can be estimated is left out exactly when the first partition has no row of it or of the treated cohort; the never-treated path raises exactly when some partition is empty, hence whenever there are fewer units than partitions.)", "quantifier": "every cell, list of comparison cohorts, estimator and partitioning of the rows", "why_tests_cant": "placement depends on the scheduler and the number of partitions; tests see one placement", "anchors": ["moderndid/dask/_ddd_streaming.py:streaming_cell_multi_control", "moderndid/spark/_ddd_streaming.py:streaming_cell_multi_control", "moderndid/dask/_ddd_mp.py:_process_cohort_cells"]}
{"id": "C182", "title": "Comparison cohorts of distributed ddd", "statement": "Among cohorts with a finite code, distributed and single-machine ddd use the same comparison cohorts and rows. (Violated: never-treated units coded as infinity are a comparison cohort on a single machine and never one in the distributed code; if all never-treated units are coded so, a never-treated comparison consists of the treated cohort alone.)", "quantifier": "every data set, cohort, period and base period", "why_tests_cant": "tests code never-treated units as 0; agreement must hold for every cohort structure", "anchors": ["moderndid/dask/_ddd_mp.py:_compute_cell_streaming", "moderndid/dask/_ddd_streaming.py:prepare_cell_partitions", "moderndid/didtriple/estimators/ddd_mp.py:_get_cell_data"]}
{"id": "C183", "title": "Combination of comparison cohorts in distributed ddd", "statement": "In a panel with one row per unit and period and constant cohorts, if every comparison is estimated as on a single machine and every unit of the cell belongs to the treated cohort or to an estimable comparison, the distributed combination returns the same estimate, influence values and standard error as the single-machine one, whatever the order and partitioning of rows. (Violated otherwise: units of the cell in no comparison leave estimate and influence values unchanged but multiply the squared standard error by (N'^2/(N'-1))/(N^2/(N-1)) > 1.)", "quantifier": "every panel, list of comparison cohorts, row order, matrix inverse routine and number of units", "why_tests_cant": "equality with the single-machine combination must hold for every data set and row order; the standard error gap needs an unestimable cohort", "anchors": ["moderndid/dask/_ddd_streaming.py:streaming_cell_multi_control", "moderndid/didtriple/estimators/ddd_mp.py:_process_multiple_controls", "moderndid/didtriple/estimators/ddd_mp.py:_gmm_aggregate"]}
{"id": "C184", "title": "Distributed did_multiplegt estimate", "statement": "For every placement of units on workers, the distributed effect at a horizon is the weighted average of the single-machine row contributions, and equals the single-machine estimate whenever every candidate switcher has a control observed in the same period and baseline. (Violated otherwise: switchers without a control still count in the denominator, so the effect is shrunk by the ratio of the two total weights, is reported as 0 instead of missing when no switcher has a control, and the reported number of switchers counts them.)", "quantifier": "every panel with non-negative weights, horizon, placebo or effect, placement of units on workers, order of merging", "why_tests_cant": "equality must hold for every partitioning and merge order; the gap needs a baseline whose control is unobserved in one period", "anchors": ["moderndid/distributed/_didinter_partition.py:partition_global_scalars", "moderndid/distributed/_didinter_partition.py:reduce_global_scalars", "moderndid/dask/_didinter_mp.py", "moderndid/didinter/compute_did_multiplegt.py:_compute_effects_for_type"]}
{"id": "C185", "title": "Distributed normalised effects", "statement": "If no used switcher has a missing treatment between its last untreated period and the horizon, the distributed normaliser and normalised effect equal the single-machine ones for every placement of units. (Violated otherwise: one missing dose makes the distributed normaliser, hence the normalised effect, missing, while the single machine treats it as zero.)", "quantifier": "every panel with non-negative weights, horizon and placement of units on workers", "why_tests_cant": "must hold for every partitioning; the gap needs a missing dose inside a switcher's window", "anchors": ["moderndid/distributed/_didinter_partition.py:partition_delta_d", "moderndid/didinter/compute_did_multiplegt.py"]}
{"id": "C186", "title": "Distributed influence values and standard errors of did_multiplegt", "statement": "Without clusters or trend strata and with a control for every candidate switcher, the distributed influence value of every unit is the single-machine one rescaled by the unit counts, and the standard error is the same number for every placement of units. (Violated when a switcher has no control: the standard error is shrunk by the same factor as the effect.)", "quantifier": "every panel with non-negative weights, horizon, placement of units and number of units used by the distributed code", "why_tests_cant": "the equality of sums over arbitrary partitions must hold for all data", "anchors": ["moderndid/distributed/_didinter_partition.py:partition_variance_influence", "moderndid/didinter/variance.py"]}
{"id": "C187", "title": "Cluster counts and trend strata in distributed did_multiplegt", "statement": "With a cluster variable, the distributed degrees-of-freedom correction counts the different clusters of the control group or cohort, wherever the units are placed. (Violated: the single-machine count for controls is one larger as soon as a non-control row shares the period and baseline; and with trends_nonparam the distributed cohorts ignore the strata, so estimate agrees but the standard error differs.)", "quantifier": "every panel, cluster assignment, row and placement of units", "why_tests_cant": "must hold for every assignment of clusters to workers", "anchors": ["moderndid/distributed/_didinter_partition.py:partition_dof_stats", "moderndid/didinter/variance.py"]}
{"id": "C188", "title": "Covariance matrix of distributed did_multiplegt", "statement": "The covariance matrix returned by the distributed code is the sample covariance of influence values padded with zeros up to the number of units before filtering; it equals the single-machine matrix when no unit is dropped. (Violated: with dropped units the matrix differs from the single-machine one although the standard errors agree.)", "quantifier": "all influence values, and all numbers of units", "why_tests_cant": "an identity for all influence values; tests use data without dropped units", "anchors": ["moderndid/dask/_didinter_mp.py", "moderndid/didinter/compute_did_multiplegt.py"]}
{"id": "C189", "title": "Placement dependence of the distributed did_multiplegt filters", "statement": "Rows kept by the distributed baseline filters are kept by the single machine when some baseline has variation, and all of them are kept when each baseline sits on one worker. (Violated: a row whose worker holds no never-switcher of its baseline and period, or no second switching date of its baseline, is dropped; if each baseline is spread one unit per worker, everything is dropped; if no baseline varies at all, the single machine keeps nothing and the distributed code keeps the never-switchers. The same call on the same data keeps 16 or 0 rows depending on hashing.)", "quantifier": "every panel and placement of units on workers", "why_tests_cant": "tests run few partitions on large data; the outcome depends on the placement", "anchors": ["moderndid/distributed/_didinter_preprocess.py", "moderndid/dask/_didinter_mp.py", "moderndid/core/preprocess/transformers.py"]}
{"id": "C190", "title": "Number of horizons in distributed did_multiplegt", "statement": "A horizon is estimated by the distributed code exactly if it was requested and some worker holds a switcher with that many periods up to that worker's own last period (dually for placebos). It is the single-machine rule if all workers see the same last period, and never more horizons than that. (Violated otherwise: with unbalanced panels horizons are dropped.)", "quantifier": "every list of workers with any last periods and switching dates, and any request", "why_tests_cant": "must hold for all partitions; the gap needs a worker whose panel ends earlier", "anchors": ["moderndid/distributed/_didinter_preprocess.py", "moderndid/core/preprocess/transformers.py"]}
{"id": "C191", "title": "Covariate regression of distributed did_multiplegt", "statement": "For every placement of units on workers and every reduction tree, the reduced regression of a baseline level is the one over all usable never-switcher rows, and the adjusted outcome changes equal the single-machine ones if the usable rows come from two units and outnumber the covariates, or if at most one never-switcher has an observed change. (Violated: with no more rows than covariates only the distributed program adjusts; with one unit left after dropping missing covariates only the single machine adjusts.)", "quantifier": "every panel, covariates with missing values, horizon, placement of units on workers and linear solver", "why_tests_cant": "equality over all partitions and merge orders; the gaps need few rows or missing covariates", "anchors": ["moderndid/distributed/_didinter_partition.py:partition_control_gram", "moderndid/distributed/_didinter_partition.py:reduce_control_gram", "moderndid/distributed/_didinter_partition.py:solve_control_coefficients", "moderndid/distributed/_didinter_partition.py:partition_apply_control_adjustment", "moderndid/dask/_gram.py:tree_reduce", "moderndid/didinter/controls.py"]}
{"id": "C192", "title": "Distributed did_multiplegt effects with covariates", "statement": "With covariates, if every candidate switcher has a control and every baseline level has an ordinary regression or at most one never-switcher, every distributed effect and placebo equals the single-machine one, whatever the placement of units.", "quantifier": "every panel, covariates, horizon, effect or placebo, placement of units and unit count", "why_tests_cant": "must hold for every partitioning and data set", "anchors": ["moderndid/dask/_didinter_mp.py", "moderndid/distributed/_didinter_partition.py", "moderndid/didinter/compute_did_multiplegt.py"]}
{"id": "C193", "title": "Standard errors of distributed did_multiplegt with covariates", "statement": "The covariate adjustment of the distributed influence values equals the single-machine one for a switcher whose baseline level is the only usable one. (Violated otherwise: the distributed program adds the cost of a level only to the switchers of that level, the single machine adds all costs to every unit, so the same panel gets the same effect and another standard error.)", "quantifier": "every panel, covariates, placement of units, set of levels, coefficients and unit", "why_tests_cant": "an identity for all data; tests with tolerance on point estimates do not see it", "anchors": ["moderndid/distributed/_didinter_partition.py:partition_control_influence_sums", "moderndid/distributed/_didinter_partition.py:partition_compute_variance_part2", "moderndid/didinter/controls.py"]}
{"id": "C194", "title": "predict_het: which units and which outcome changes are regressed", "statement": "For did_multiplegt(predict_het=...), a unit enters the regression of horizon h exactly if it switches treatment and its outcome is observed in the last period before the switch and h periods later; its dependent variable is that outcome change signed by the direction of the switch. The horizons run are those asked for between 1 and `effects`, or all when -1 is asked for. The distributed run regresses the same rows for every placement of the units.", "quantifier": "all panels with at most one row per unit and period, all gaps and missing outcomes, all horizons, all placements of units in partitions", "why_tests_cant": "Every pattern of missing outcomes and every partition matters; tests use balanced panels.", "anchors": ["moderndid/didinter/compute_did_multiplegt.py:_compute_heterogeneity", "moderndid/didinter/compute_did_multiplegt.py:_compute_het_horizon", "moderndid/distributed/_didinter_partition.py", "moderndid/dask/_didinter_mp.py"]}
{"id": "C195", "title": "predict_het: what the coefficients measure", "statement": "When no regressor is redundant, adding to the outcome changes a linear function of the covariates plus any functions of the switching date, the baseline treatment and the direction moves the reported coefficients by exactly the coefficients of the linear function; outcome changes of exactly that form are recovered; the row order is irrelevant; a common period shock does not change the coefficients when all switchers go in one direction. (Violated: with switchers in both directions a common period shock alone produces a covariate coefficient, because date and direction dummies are not interacted.)", "quantifier": "all samples, nonnegative weights, covariates, shocks and solutions of the normal equations", "why_tests_cant": "Invariance for every added component cannot be sampled.", "anchors": ["moderndid/didinter/compute_did_multiplegt.py:_run_het_regression"]}
{"id": "C196", "title": "predict_het with trends_lin or missing first rows", "statement": "With trends_lin the regressed variable of a unit is its effect relative to its own linear trend, and every observed switcher influences the coefficients according to its weight. (Violated: outcomes are first-differenced in preprocessing and detrended again, so a constant effect tau gives tau at horizon 1 and 0 at all later horizons; the weight is that of the unit's first row, which is zero when the outcome is missing there - with trends_lin, for every unit entering the data after the first period - and then the unit's outcomes have no influence.)", "quantifier": "all units, outcome paths, horizons, trends and effect sizes", "why_tests_cant": "Needs the value for every path and horizon, not a smoke test of the output shape.", "anchors": ["moderndid/didinter/compute_did_multiplegt.py:_compute_het_horizon", "moderndid/core/preprocess/transformers.py:TrendsLinTransformer", "moderndid/core/preprocess/transformers.py:DIDInterDataPreparer"]}
{"id": "C197", "title": "Distributed cont_did analyses the same panel as cont_did", "statement": "For every placement of the rows in partitions, cont_did on a Dask or Spark frame analyses the panel the single-machine run analyses, with the same cohorts when they are inferred from the doses. (Holds when periods are numbered 1..T, every period stays observed after early cohorts are dropped, the last period has a complete row and no treated unit has a zero dose; violated: a cohort member with dose zero, dropped on a single machine, becomes a comparison unit of its own cohort; the last period is determined before incomplete rows are dropped.)", "quantifier": "all panels, all missing-value patterns, all partitions", "why_tests_cant": "Every partitioning and every pattern of missing rows matters.", "anchors": ["moderndid/distributed/_didcont_preprocess.py", "moderndid/dask/_didcont_mp.py: dask_cont_did_mp", "moderndid/spark/_didcont_mp.py", "moderndid/core/preprocess/transformers.py: DoseValidatorTransformer"]}
{"id": "C198", "title": "Distributed cont_did does not depend on scheduling or earlier runs", "statement": "In whatever order the workers finish, each (cohort, period) cell gets its own result and each unit its own influence value, and results do not depend on what was run before on the same cluster. (Violated on Dask: task names contain only cohort and period, so results of an earlier run still held by the scheduler are returned for other data.)", "quantifier": "all completion orders, all histories of the scheduler", "why_tests_cant": "Schedules and histories cannot be enumerated.", "anchors": ["moderndid/dask/_didcont_mp.py: _run_cell_estimation", "moderndid/distributed/_didcont_partition.py: build_cell_subset"]}
{"id": "C199", "title": "Distributed event studies of cont_did use outcome changes", "statement": "The event-study level effect of a cell on a distributed frame is the one of the single-machine run, so that constant differences between treated and comparison units do not matter. (Violated: the option to difference the outcome is not passed to the workers; the estimate is a comparison of outcome levels, off by the dose-weighted base-period difference.)", "quantifier": "all doses, outcomes and cells", "why_tests_cant": "Holds or fails for all outcome values; tests with equal baselines pass.", "anchors": ["moderndid/distributed/_didcont_partition.py: process_pte_cell_from_subset", "moderndid/didcont/cont_did.py: cont_did", "moderndid/didcont/estimation/estimators.py: pte_attgt"]}
{"id": "C200", "title": "Candidate sieve dimensions respect the complexity limit", "statement": "The candidates considered by the data-driven choice of the sieve dimension are the doubling numbers of segments whose complexity (dimension times ill-posedness) stays below the limit 10 sqrt(n): the longest initial run that satisfies it, each with 2^k_w_smooth times as many instrument segments. (Holds when the smallest candidate satisfies the limit; violated otherwise: when the smallest candidates already exceed it, e.g. for weak instruments, the full grid is kept; a singular value of exactly zero or a failed computation counts as a well-posed problem.)", "quantifier": "all sample sizes, dimensions, sequences of test values, singular values, including failed computations", "why_tests_cant": "The scan with carried-forward values has to be followed for arbitrary sequences of test values; weak-instrument behaviour is a limit statement.", "anchors": ["moderndid/didcont/npiv/lepski.py:npiv_jhat_max", "moderndid/didcont/npiv/lepski.py:_compute_sieve_measure", "moderndid/didcont/npiv/selection.py:npiv_choose_j"]}
{"id": "C201", "title": "The selected sieve dimension is the smallest that passes all comparisons", "statement": "With two or more candidates in increasing order, the data-driven number of segments is the smallest candidate whose fit does not differ significantly from that of any larger candidate, capped at the second largest; it comes with its own instrument segments; the largest candidate is never chosen; a larger critical value never gives a larger choice. (Violated for a single candidate: the selection raises and npiv silently uses its default of at least three segments.)", "quantifier": "all candidate lists, statistics, bootstrap draws, quantile levels", "why_tests_cant": "Minimality ranges over all comparison matrices.", "anchors": ["moderndid/didcont/npiv/lepski.py:npiv_j", "moderndid/didcont/npiv/lepski.py:_select_optimal_dimension", "moderndid/didcont/npiv/npiv.py:npiv"]}
{"id": "C202", "title": "A failed comparison does not decide the sieve dimension", "statement": "A candidate is chosen only on the basis of comparisons that were carried out. (Violated: if the fits of one pair fail, the critical value is infinite, every comparison passes and the smallest candidate is chosen whatever the other comparisons say; the accompanying band is infinitely wide.)", "quantifier": "all candidate lists, statistics, bootstrap draws, every failing pair", "why_tests_cant": "A failing pair depends on numerical accidents; the effect on all other comparisons is a statement about every matrix of statistics.", "anchors": ["moderndid/didcont/npiv/lepski.py:npiv_j", "moderndid/didcont/npiv/cck_ucb.py:compute_cck_ucb"]}
{"id": "C203", "title": "The variance that studentizes a comparison is the variance of its bootstrap draws", "statement": "For every pair of sieve fits, the variance used to studentize the difference of the fits is the sum of the squared differences of the observations' influences, hence never negative; it is the second moment of the multiplier bootstrap difference; the statistic and its draws do not depend on the units of the outcome.", "quantifier": "all bases, outcomes, evaluation points, laws of uncorrelated unit-variance multipliers, scale factors", "why_tests_cant": "An identity between matrix expressions and expectations, for all matrices and laws.", "anchors": ["moderndid/didcont/npiv/lepski.py:_compute_test_statistic", "moderndid/didcont/npiv/lepski.py:_bootstrap_comparison", "moderndid/didcont/npiv/estimators.py:_compute_asymptotic_standard_errors"]}
{"id": "C204", "title": "Uniform confidence bands: centring, calibration, units", "statement": "The uniform band is centred at the estimate and contains it; at least a fraction 1-alpha of the bootstrap draws stay inside it at all evaluation points at once; it follows the units of the outcome. (Violated: with the default 99 draws and alpha = 0.05 only 94 draws stay inside; if the standard error vanishes at one evaluation point, the half width is the unit-free critical value everywhere and does not change when the outcome is rescaled.)", "quantifier": "all fits, outcomes, draws, levels, scale factors", "why_tests_cant": "Counting statement over all draws; the fallback for vanishing standard errors is a measure-zero case.", "anchors": ["moderndid/didcont/npiv/confidence_bands.py:compute_ucb", "moderndid/didcont/npiv/cck_ucb.py:compute_cck_ucb", "moderndid/didcont/utils.py:_quantile_basis"]}
{"id": "C205", "title": "The sieve estimator is two-stage least squares", "statement": "For every sieve and every set of instruments, collinear or not, the residuals are orthogonal to the projection of the sieve on the instruments; an outcome in an identified sieve is recovered exactly; when the sieve lies in the span of the instruments the estimator is ordinary least squares; only the space spanned by the instruments matters, and a change of basis of an identified sieve does not change the fitted values.", "quantifier": "all basis matrices, outcomes, changes of basis", "why_tests_cant": "Algebraic identities for all matrices, including rank-deficient ones.", "anchors": ["moderndid/didcont/npiv/estimators.py:_perform_tsls_estimation", "moderndid/didcont/npiv/estimators.py:_ginv"]}
{"id": "C206", "title": "Support bounds mean the same in estimation, selection and bands", "statement": "A user-supplied bound of the support of x or w defines the knots in the same way in the estimator, the selection of the dimension and the confidence band. (Holds for non-zero bounds; violated: a bound equal to zero is ignored by selection and band, which use the data range instead.)", "quantifier": "all bounds and data ranges", "why_tests_cant": "The exception is a single value of a real-valued option; all others behave.", "anchors": ["moderndid/didcont/npiv/lepski.py:_compute_basis_and_influence", "moderndid/didcont/npiv/cck_ucb.py:compute_cck_ucb", "moderndid/didcont/npiv/estimators.py:_construct_basis_matrices"]}
{"id": "C207", "title": "Comparisons are studentized by the variance of the fits compared", "statement": "The instruments behind the variance of a comparison of two candidates are the instruments of the two fits. (Holds when w differs from x; violated in the regression case: the fits compared are least squares on the sieve of x, the variance is that of an instrumental-variable fit with instruments of another degree and more columns, for every candidate.)", "quantifier": "all candidates, degrees, numbers of regressors, smoothness parameters >= 1", "why_tests_cant": "A statement about every candidate of every grid.", "anchors": ["moderndid/didcont/npiv/lepski.py:npiv_j", "moderndid/didcont/npiv/estimators.py:_determine_segments"]}
{"id": "C208", "title": "Coding of never-treated units in ddd()", "statement": "ddd() runs the same estimator whether never-treated units are coded 0 or infinity. (Holds with more than two periods; violated exactly when the data have at most two periods, exactly two treated cohorts and units coded 0: coding 0 runs the group-time estimator, infinity the two-period one, which for repeated cross-sections pools a cohort treated after both periods with the treated.)", "quantifier": "all data sets and option settings of the entry point", "why_tests_cant": "A statement about every combination of periods, cohorts and codes.", "anchors": ["moderndid/didtriple/utils.py:detect_multiple_periods", "moderndid/didtriple/ddd.py:ddd", "moderndid/didtriple/estimators/ddd_rc.py:_ddd_rc_2period"]}
{"id": "C209", "title": "Options that reach the estimator in ddd()", "statement": "Every documented option of ddd() that is not documented as ignored influences the estimator that is run. (Violated: cluster, documented as supported for two-period data with bootstrap, never has an effect there; with several periods it is passed on. In panel mode the trim level, with several periods also bootstrap type and weights, have no effect.)", "quantifier": "all estimators, option settings and data sets", "why_tests_cant": "That an argument never matters is a claim about all inputs.", "anchors": ["moderndid/didtriple/ddd.py:ddd"]}
{"id": "C210", "title": "Unbalanced panels in ddd()", "statement": "With allow_unbalanced_panel=False an unbalanced panel is refused. (Violated: it is estimated, with two periods on the units seen in both. With several periods the option has no effect; with two periods it turns exactly the unbalanced panels into repeated cross-sections using every row.)", "quantifier": "all panels and option settings", "why_tests_cant": "Ranges over every pattern of missing unit-periods.", "anchors": ["moderndid/didtriple/ddd.py:ddd", "moderndid/didtriple/utils.py:detect_rcs_mode", "moderndid/core/preprocess/utils.py:is_balanced_panel"]}
{"id": "C211", "title": "Who is treated in the two-period triple difference", "statement": "The four subgroups of a two-period triple difference consist of units treated in the second but not the first period (eligible, ineligible) and units treated in neither. (Holds exactly if every treated cohort is first treated after the first period and by the second; violated otherwise, as no check is made in either two-period estimator.)", "quantifier": "all two-period data sets", "why_tests_cant": "Ranges over all cohort codes.", "anchors": ["moderndid/didtriple/estimators/ddd_rc.py:_ddd_rc_2period", "moderndid/core/preprocess/validators.py:DDDDataValidator", "moderndid/core/preprocess/transformers.py:DDDSubgroupCreator"]}
{"id": "C212", "title": "Group-time triple difference on repeated cross-sections", "statement": "Each cell is a weighted sum of comparisons of the cohort with one comparison cohort on the rows of the two periods, with influence values weighted alike and rescaled by rows of the data over rows of the comparison, so that with one comparison cohort the standard error is that of the comparison; unit identifiers never matter; influence columns belong to their estimates. (The last is violated when a cell is skipped.)", "quantifier": "all data sets, estimators and option settings", "why_tests_cant": "Ranges over all numbers of cohorts, periods and rows and any failure pattern of the comparisons.", "anchors": ["moderndid/didtriple/estimators/ddd_mp_rc.py:ddd_mp_rc", "moderndid/didtriple/estimators/ddd_mp_rc.py:_process_gt_cell_rc", "moderndid/didtriple/estimators/ddd_mp_rc.py:_process_multiple_controls_rc"]}
{"id": "C213", "title": "Standard error of a cross-sectional cell with several comparison cohorts", "statement": "The standard error reported for a (g,t) cell of repeated cross-sections is the one implied by its influence values. (Violated with several comparison cohorts: it is multiplied by N/sqrt((N-1) n), N the rows of the cell and n all rows, hence too small as soon as n > N^2/(N-1).)", "quantifier": "all cells, comparison cohorts and data sizes", "why_tests_cant": "An identity in all influence values and sizes.", "anchors": ["moderndid/didtriple/estimators/ddd_mp_rc.py:_process_multiple_controls_rc", "moderndid/didtriple/estimators/ddd_mp.py:_gmm_aggregate"]}
{"id": "C214", "title": "Group-time and two-period triple differences agree", "statement": "On a two-period design with one cohort treated between the periods and one code for never-treated units, the group-time estimators hand the same rows (pairs), post indicators and subgroups to the same inner estimator as the two-period ones and report its estimate, for either base period and comparison group, for repeated cross-sections and balanced panels.", "quantifier": "all two-period designs, estimators and options", "why_tests_cant": "Equality of two code paths for all data.", "anchors": ["moderndid/didtriple/estimators/ddd_mp_rc.py:_process_gt_cell_rc", "moderndid/didtriple/estimators/ddd_mp.py:_process_gt_cell", "moderndid/didtriple/estimators/ddd_rc.py:_ddd_rc_2period"]}
{"id": "C215", "title": "Intervals of two-period estimators from bootstrap draws", "statement": "When the reported standard error is positive the bootstrap interval is the estimate plus or minus the 1-alpha quantile of the absolute centred draws (the standard error cancels), so that at least floor((B-1)(1-alpha))+1 of the B successful weighted-bootstrap draws lie inside; it scales with the units of the outcome and ignores the order of draws. (Violated when the central half of the draws coincide: the interval shrinks to the point estimate, possibly with all draws outside.)", "quantifier": "all draw vectors, levels and estimates", "why_tests_cant": "Ranges over all draw vectors.", "anchors": ["moderndid/drdid/estimators/drdid_panel.py:drdid_panel", "moderndid/didtriple/estimators/ddd_panel.py:ddd_panel", "moderndid/didtriple/estimators/ddd_rc.py:ddd_rc"]}
{"id": "C216", "title": "Options accepted by drdid, ipwdid and ordid", "statement": "drdid, ipwdid and ordid accept exactly the documented option values (treatment column, unit column for panels, method names per data type, trimming level strictly between 0 and 1, bootstrap type, at least one replication); everything else is refused before the data are looked at. ordid has no method or trimming options.", "quantifier": "all option settings and data frames", "why_tests_cant": "Ranges over all strings and numbers.", "anchors": ["moderndid/drdid/drdid.py:drdid", "moderndid/drdid/ipwdid.py:ipwdid", "moderndid/drdid/ordid.py:ordid"]}
{"id": "C217", "title": "drdid, ipwdid and ordid on a panel without covariates", "statement": "From the data frame to the estimate: without covariates every method of the three functions returns the weighted mean change of treated units minus that of comparison units, over exactly the units observed once in each period, whatever the row order, duplicated or missing unit-periods, and the scale of the weights (scores within the trimming level).", "quantifier": "all two-period frames, weights and outcomes", "why_tests_cant": "Ranges over all frames.", "anchors": ["moderndid/drdid/drdid.py:drdid", "moderndid/drdid/ipwdid.py:ipwdid", "moderndid/drdid/ordid.py:ordid", "moderndid/core/preprocess/builders.py:_build_two_period_did_data"]}
{"id": "C218", "title": "Row order of two-period panels", "statement": "Permuting the rows of a panel changes neither the estimate nor whether an error is raised, for drdid, ipwdid and ordid, with any covariates and options.", "quantifier": "all frames, permutations and options", "why_tests_cant": "Ranges over all permutations of all frames.", "anchors": ["moderndid/core/preprocess/builders.py:_build_two_period_did_data", "moderndid/core/preprocess/transformers.py:get_two_period_pipeline"]}
{"id": "C219", "title": "Two-period functions on repeated cross-sections without covariates", "statement": "Without covariates all four methods of drdid, the normalised ipwdid and ordid return the four-mean difference-in-differences of the rows without nulls; unit identifiers and duplicates play no role.", "quantifier": "all two-period cross-sections", "why_tests_cant": "Ranges over all frames.", "anchors": ["moderndid/drdid/drdid.py:drdid", "moderndid/core/preprocess/transformers.py:MissingDataHandler", "moderndid/core/preprocess/builders.py:_build_two_period_did_data"]}
{"id": "C220", "title": "Which doubly robust estimator runs on repeated cross-sections", "statement": "With panel=False drdid implements the locally efficient estimator (3.4) of Sant'Anna and Zhao with separate regressions for treated and comparison units (Notes of the docstring). (Holds for est_method trad and imp_local; violated for the default imp, which is the not locally efficient (3.3): on a saturated design it returns 2/3 where (3.4) is 3/5.)", "quantifier": "all cross-sections, covariates and fits", "why_tests_cant": "An identity for all inputs.", "anchors": ["moderndid/drdid/drdid.py:drdid", "moderndid/drdid/estimators/drdid_rc.py:drdid_rc", "moderndid/drdid/estimators/drdid_imp_rc.py:drdid_imp_rc", "moderndid/drdid/estimators/drdid_imp_local_rc.py:drdid_imp_local_rc"]}
{"id": "C221", "title": "An accepted two-period panel uses both arms", "statement": "An estimate is only returned if some treated and some comparison unit of non-zero weight is observed in both periods. (Holds for drdid trad and ipwdid; violated by ordid, which reports 0 when no treated unit is observed in both periods.)", "quantifier": "all panels and options", "why_tests_cant": "Ranges over all patterns of missing unit-periods.", "anchors": ["moderndid/drdid/ordid.py:ordid", "moderndid/drdid/estimators/reg_did_panel.py:reg_did_panel", "moderndid/drdid/drdid.py:drdid"]}
{"id": "C222", "title": "Period of the covariates in two-period panels", "statement": "Panel estimates adjust for pre-treatment covariates. (Violated: the covariates of the post-treatment row are used, those of the pre-treatment row never matter; att_gt uses the earlier row. Changing only a post-treatment covariate of a treated unit moves the estimate from 2 to 1.)", "quantifier": "all panels, covariate paths and options", "why_tests_cant": "That a column never matters is a claim about all inputs.", "anchors": ["moderndid/core/preprocess/builders.py:_build_two_period_did_data", "moderndid/drdid/drdid.py:drdid", "moderndid/did/compute_att_gt.py:compute_att_gt"]}
{"id": "C223", "title": "Identified sets under relative magnitudes with a sign or monotonicity restriction", "statement": "For compute_identified_set_rm, _rmb and _rmm fewer than two pre-periods raise; otherwise, when the largest change before treatment is attained at a difference other than the first, the reported interval is exactly the set of effects compatible with the coefficients, the relative-magnitudes bound and the sign or monotonicity restriction. (Violated when the first change is strictly the largest: the point estimate alone is reported and a true effect with non-zero bias lies outside.) For compute_identified_set_sdrm, _sdrmb and _sdrmm the reported interval contains that set, each end is in it or is the point estimate, and it is exact when the point estimate belongs to it. (Violated in general: with coefficients that are not linear before treatment the point estimate is always included, e.g. only -1 is compatible but [-1, 0] is reported.)", "quantifier": "all numbers of periods, coefficients, weights, bounds, restrictions and exact solvers", "why_tests_cant": "Set equality over all coefficient vectors and all solver results.", "anchors": ["moderndid/didhonest/delta/rm/rm.py:compute_identified_set_rm", "moderndid/didhonest/delta/rm/rmb.py:compute_identified_set_rmb", "moderndid/didhonest/delta/rm/rmm.py:compute_identified_set_rmm", "moderndid/didhonest/delta/sdrm/sdrm.py:compute_identified_set_sdrm", "moderndid/didhonest/delta/sdrm/sdrmb.py:compute_identified_set_sdrmb", "moderndid/didhonest/delta/sdrm/sdrmm.py:compute_identified_set_sdrmm"]}
{"id": "C224", "title": "Cells of the panel treatment effects estimator in calendar terms", "statement": "For the two-by-two comparisons behind pte_default, a cell (g, t) compares the outcomes of the units first treated at g with those of units never treated or not treated by t, between t and a base period: the observed period just before t for cells before treatment, and the observed period anticipation + 1 places before g otherwise. Only the order of the observed periods matters; gaps between them play no role. (Violated when a unit's first treatment date G is not an observed period and does not exceed their number: the unit is merged with the cohort of the G-th observed period and serves as a comparison unit in periods in which it is treated.)", "quantifier": "all panels, sets of observed periods with or without gaps, cohorts, anticipation values and cells", "why_tests_cant": "Ranges over all period sets and all timings; the recoding is invisible in tests on consecutive years.", "anchors": ["moderndid/didcont/estimation/process_panel.py:setup_pte", "moderndid/didcont/estimation/process_panel.py:_two_by_two_subset"]}
{"id": "C225", "title": "Reported cells carry calendar labels", "statement": "Every cell reported by pte_default with the multiplier bootstrap carries the calendar period and cohort it was computed for, whenever the observed periods are 1..T or some evaluated index is not itself an observed period (calendar years, say), and the empirical bootstrap's labels are always calendar ones. (Violated when the observed periods lack 1 but include 2..T, e.g. 2..5: every reported label is the index, not the period, and the share of the first estimated cohort in the overall effect is zero.)", "quantifier": "all sets of observed periods and cells", "why_tests_cant": "Depends on an overlap of indices and periods that only particular period sets have.", "anchors": ["moderndid/didcont/estimation/process_attgt.py:process_att_gt", "moderndid/didcont/estimation/process_aggte.py:aggregate_att_gt"]}
{"id": "C226", "title": "Point estimates do not depend on the kind of bootstrap", "statement": "The event study of pte_default is the same whether boot_type is multiplier or empirical for balanced panels with unit weights and consecutive periods. (Violated otherwise: the overall effects are different functions of the same cell estimates; event times are index differences under one and calendar differences under the other when periods have gaps; sampling weights are ignored by the empirical aggregation.)", "quantifier": "all cell estimates, cohort sizes and period sets", "why_tests_cant": "An equality of two aggregation functions over all inputs.", "anchors": ["moderndid/didcont/estimation/process_aggte.py:aggregate_att_gt", "moderndid/didcont/estimation/bootstrap.py:attgt_pte_aggregations"]}
{"id": "C227", "title": "Aggregation weights of the empirical path reproduce the effects", "statement": "The overall, event-time and cohort weights returned by the empirical aggregation are nonnegative, zero on cells before treatment (for the overall and cohort effects), sum to one, and the weighted sum of the cell estimates with them is the reported overall, event-time or cohort effect.", "quantifier": "all cell estimates, cohort sizes and sets of cells", "why_tests_cant": "An identity over all tables of cell estimates.", "anchors": ["moderndid/didcont/estimation/bootstrap.py:attgt_pte_aggregations"]}
{"id": "C228", "title": "Standard errors of the empirical bootstrap", "statement": "With B replicates an event time is reported if and only if it is estimated in every replicate, and its standard error is the sample standard deviation (divisor B - 1) of the replicate estimates; a cell no replicate estimates has none. (Violated for the overall effect: divisor B, smaller by the factor sqrt((B-1)/B) on the same numbers; for slope event studies: replicates lose the evaluation points, all replicate slopes are zero and so is every standard error; when never-treated units are coded infinity the earliest cohort is estimated in no replicate; quantile effects use the median in the replicates whatever quantile was asked for.)", "quantifier": "all panels, draws of units, numbers of replicates and options", "why_tests_cant": "Ranges over all bootstrap draws.", "anchors": ["moderndid/didcont/estimation/bootstrap.py:panel_empirical_bootstrap"]}
{"id": "C229", "title": "Quantile treatment effects read the quantile of the mixture", "statement": "The quantile treatment effect at tau is the difference of the two least grid points at which the weighted mixture of the cell distributions reaches tau, and this is the exact quantile of the mixture when all sample values are grid points. (Violated for the counterfactual distribution when its quantile exceeds the largest observed outcome: the largest grid point is reported.)", "quantifier": "all cell samples, weights, grids and tau", "why_tests_cant": "Ranges over all distributions; correctness of a binary search.", "anchors": ["moderndid/didcont/estimation/bootstrap.py:qtt_pte_aggregations", "moderndid/didcont/estimation/bootstrap.py:_combine_ecdfs"]}
{"id": "C230", "title": "Quantiles of the treatment effect distribution", "statement": "The reported quantile of the distribution of effects is the least of 1000 equally spaced points on [-ymax, ymax] at which the mixture of the cell distributions reaches tau, ymax being the largest observed outcome, when ymax is nonnegative. (Violated when all outcomes are negative: one of the two end points is reported whatever the effects are; and effects whose quantile is below -ymax are reported as -ymax.)", "quantifier": "all cell samples, weights, largest outcomes and tau", "why_tests_cant": "Ranges over all distributions and signs of the outcomes.", "anchors": ["moderndid/didcont/estimation/bootstrap.py:qott_pte_aggregations"]}
{"id": "C231", "title": "Clustering options of att_gt and aggte", "statement": "att_gt with the bootstrap accepts exactly the specifications with at most two cluster variables of which at most one is not the unit identifier. With one cluster variable with clusters of equal size the bootstrap draws have the cluster-robust variance, and only the partition of the units the variable defines matters. (Violated for the documented specification [idname, v]: every unit is its own cluster, so v is ignored; the combined labels of two variables collide for texts containing underscores; and aggte never clusters: it raises with two variables and otherwise uses one multiplier per unit.)", "quantifier": "all panels, cluster variables and specifications of clustervars", "why_tests_cant": "Ranges over all partitions of the units and all influence values.", "anchors": ["moderndid/did/att_gt.py:att_gt", "moderndid/core/preprocess/validators.py:ClusterValidator", "moderndid/did/compute_aggte.py:_compute_se", "moderndid/did/mboot.py:mboot"]}
{"id": "C232", "title": "Confidence sets for relative magnitudes with several post-periods", "statement": "With two or more post-treatment periods, the confidence set of compute_conditional_cs_rm, compute_conditional_cs_rmb, compute_conditional_cs_rmm, compute_conditional_cs_sdrm, compute_conditional_cs_sdrmb and compute_conditional_cs_sdrmm is the union over the reference differences and signs of the sets of compute_arp_nuisance_ci. When the coefficients are normal with the given covariance and the violation of parallel trends lies in the documented restriction (for first differences: with the largest pre-treatment change not only at the first one, see C61), a true effect that is a grid value is in the returned set with probability at least 1 - alpha, up to samples in which the accepted values are not contiguous, for exact linear programs with basic solutions and regular moments; such exact solvers always exist.", "quantifier": "all numbers of pre- and post-periods, covariance matrices, mean violations in the restriction, effects, weight vectors, Mbar, sign and monotonicity restrictions, grids and confidence levels", "why_tests_cant": "coverage is a probability over a continuous distribution for every point of an infinite parameter set; tests only see single samples and single covariance matrices", "anchors": ["moderndid/didhonest/delta/rm/rm.py:compute_conditional_cs_rm", "moderndid/didhonest/delta/rm/rmb.py:compute_conditional_cs_rmb", "moderndid/didhonest/delta/rm/rmm.py:compute_conditional_cs_rmm", "moderndid/didhonest/delta/sdrm/sdrm.py:compute_conditional_cs_sdrm", "moderndid/didhonest/delta/sdrm/sdrmb.py:compute_conditional_cs_sdrmb", "moderndid/didhonest/delta/sdrm/sdrmm.py:compute_conditional_cs_sdrmm", "moderndid/didhonest/arp_nuisance.py:compute_arp_nuisance_ci"]}
{"id": "C233", "title": "Dose responses of the cck estimator", "statement": "cont_did(dose_est_method=\"cck\") runs exactly when there is one treated group besides the untreated units and two periods. Its ATT(d) and ACRT(d), with their standard errors, do not change when a constant is added to all outcomes of a unit or the same change between the periods is added to every unit; when the outcome changes are a common trend plus a dose response in the span of the spline basis, ATT(d) is that dose response and ACRT(d) its derivative, with zero standard error. ACRT(d) and its standard error do not depend on the outcomes of the untreated units. (Violated: the standard errors of ATT(d) account for the sampling error of the untreated mean change - they do not depend on the outcomes of the untreated units at all, while the estimate moves one for one with their mean change.)", "quantifier": "all outcomes of treated and untreated units, all spline bases that sum to one and have full rank on the doses, all evaluation grids", "why_tests_cant": "invariance and exact recovery for every sample and basis; a test fixes one data set and one grid", "anchors": ["moderndid/didcont/cont_did.py:_estimate_cck", "moderndid/didcont/npiv/npiv.py:npiv", "moderndid/didcont/npiv/estimators.py:npiv_est"]}
{"id": "C234", "title": "Average derivative and critical values of the cck estimator", "statement": "The overall ACRT of the cck estimator is the average over treated units of the fitted derivative; its influence values sum to zero and its standard error is the square root of the sum of their squares over n. Without cband the critical values are the two-sided normal ones for alp. (Violated: with cband the uniform bands hold the level alp - they are computed at the default 5% whatever alp is, so that the reported critical value is the same for every alp.)", "quantifier": "all outcomes, full-rank bases, levels and bootstrap draws", "why_tests_cant": "exact cancellation of the influence values and independence of the level quantify over every sample, draw and level", "anchors": ["moderndid/didcont/cont_did.py:_estimate_cck", "moderndid/didcont/npiv/confidence_bands.py:compute_ucb", "moderndid/didcont/npiv/npiv.py:npiv"]}
{"id": "C235", "title": "Printed summaries of att_gt and aggte", "statement": "In printed summaries a row is starred exactly if its printed interval excludes zero, and rows without a standard error are never starred; the printed level is the level rounded down to whole percent. A level passed to aggte is the level printed, and the overall and pointwise intervals have it as coverage for a normal estimate. Bands are labelled simultaneous only if their critical value is the finite simultaneous one. (Violated: aggte without a level after att_gt(alp=a) prints the level of its intervals - it prints 95% for everything, the overall interval is a 95% one and the pointwise intervals of the effects cover with probability 1-a. Violated: simultaneous bands are labelled so - with uniform bands and no bootstrap standard errors they are labelled pointwise.)", "quantifier": "all levels, estimates, standard errors, combinations of bootstrap and cband arguments, and simultaneous critical values", "why_tests_cant": "a relation between printed label, interval and coverage for every level and combination of options", "anchors": ["moderndid/did/format.py", "moderndid/core/format.py:compute_significance", "moderndid/did/compute_aggte.py:compute_aggte", "moderndid/did/att_gt.py:att_gt"]}
{"id": "C236", "title": "Plot data", "statement": "The data behind event-study, group and calendar plots has one row per effect with a standard error, in the order of the result, with interval estimate plus or minus critical value times standard error, the same interval that is printed; an effect is coloured pre-treatment exactly if its event time is negative (its period is before its group in group-time plots). Intertemporal plots contain every placebo and effect once, sorted by horizon. With two or more parameter values sensitivity plots draw the original interval strictly left of all robust ones, by the smallest gap. (Violated: the same with a single parameter value - the original interval is drawn at zero, on top of the robust one when the value is zero.)", "quantifier": "all results: any number of effects, any missing standard errors, any parameter grid", "why_tests_cant": "quantifies over every result object of any length and over every grid of parameter values", "anchors": ["moderndid/plots/converters.py:aggteresult_to_polars", "moderndid/plots/converters.py:mpresult_to_polars", "moderndid/plots/converters.py:honestdid_to_polars", "moderndid/plots/converters.py:didinterresult_to_polars"]}
{"id": "C237", "title": "Truncation points of the degenerate conditional test", "statement": "In the conditional test for several post-periods, when the optimal basis is degenerate the truncation points of the test statistic are found by a bisection-like search. For every covariance matrix and nuisance matrix for which the linear programs solve: the search returns (no division by zero, within the iteration limit), the statistic lies between the two points, a finite point is within 1e-6 of lying beyond the exact end or of a value where the multipliers are optimal up to 1e-6, and a point is reported infinite only when the multipliers are still optimal up to 1e-6 twenty standard deviations (or 100) away. The distance to the exact point is at most 1e-6 + 1e-6/kappa, kappa the slope at which optimality is lost. (Violated: the points are within the tolerance of the exact truncation points: the tolerance is on the value of the program, and with nearly perfectly correlated moments an exact point 0.9 is returned as minus infinity.)", "quantifier": "all moments, covariance and nuisance matrices, dual solutions and solver results meeting the contract", "why_tests_cant": "the search stops at a tolerance on a different scale from its result; the discrepancy appears only for nearly collinear moments, and termination is a statement about all piecewise linear value functions", "anchors": ["moderndid/didhonest/arp_nuisance.py:compute_vlo_vup_dual", "moderndid/didhonest/arp_nuisance.py:_check_if_solution", "moderndid/didhonest/arp_nuisance.py:_solve_max_program"]}
{"id": "C238", "title": "FLCI hybrid under relative second differences", "statement": "compute_conditional_cs_sdrm with hybrid_flag='FLCI' and several post-periods: every reported grid value lies in the first-stage fixed-length interval. (Violated: the confidence set contains the true effect with probability at least 1-alpha for every violation in the documented set: the first stage treats m_bar, a multiple of the largest pre-treatment second difference, as an absolute bound on second differences, and coverage can be as small as one likes.)", "quantifier": "all covariance matrices, weights, levels, numbers of periods, m_bar > 0 and violations in the relative-magnitudes set", "why_tests_cant": "coverage is a probability over all samples and must hold uniformly over an unbounded set of violations", "anchors": ["moderndid/didhonest/delta/sdrm/sdrm.py:compute_conditional_cs_sdrm", "moderndid/didhonest/delta/sdrm/sdrm.py:_compute_conditional_cs_sdrm_fixed_s", "moderndid/didhonest/fixed_length_ci.py:compute_flci"]}
{"id": "C239", "title": "Group assignment of the data generators", "statement": "In gen_dgp_scalable, gen_did_scalable, gen_dgp_mult_periods and gen_dgp_2periods every unit gets a group (no index error), and given the unit's covariates each cohort and eligibility combination comes up, for a uniform draw, with exactly its multinomial-logit probability.", "quantifier": "all covariates, coefficients, numbers of cohorts and uniform draws in [0,1)", "why_tests_cant": "a simulated sample only approximates probabilities; an off-by-one in the cumulative comparison shifts them by amounts below sampling noise", "anchors": ["moderndid/didtriple/dgp.py:_assign_cohort_partition", "moderndid/didtriple/dgp.py:gen_dgp_2periods", "moderndid/didtriple/dgp.py:gen_dgp_mult_periods", "moderndid/core/data.py:_assign_did_cohort"]}
{"id": "C240", "title": "dgp_type selects the correct working models", "statement": "In the generated data the log-odds of treatment are affine in the reported covariates exactly for dgp_type 1 and 3, and the mean outcome change of the never treated is affine in them exactly for dgp_type 1 and 2 (so a logit, respectively linear, working model in the reported covariates is right exactly then).", "quantifier": "all dgp types, covariates, coefficient vectors with a non-zero second weight, pairs of periods and mean-zero noise", "why_tests_cant": "misspecification is a statement about every affine function of the covariates", "anchors": ["moderndid/didtriple/dgp.py:_select_covars", "moderndid/didtriple/dgp.py:_transform_covariates", "moderndid/didtriple/dgp.py:gen_dgp_scalable"]}
{"id": "C241", "title": "Triple-difference generators satisfy their identifying assumption", "statement": "Given the covariates, the triple difference of mean outcomes between a treated cohort and any cohort not yet treated, between a post- and a pre-period, equals the documented effect: att_base*g*(t-g+1) in gen_dgp_scalable; 10, 20 and 25 in gen_dgp_mult_periods; 0 in gen_dgp_2periods; att in generate_simple_ddd_data.", "quantifier": "all covariates, cohorts, comparison cohorts, periods and mean-zero noise distributions", "why_tests_cant": "a statement about expectations for every cohort and period", "anchors": ["moderndid/didtriple/dgp.py:_compute_scalable_outcome", "moderndid/didtriple/dgp.py:gen_dgp_mult_periods", "moderndid/didtriple/dgp.py:gen_dgp_2periods", "moderndid/didtriple/dgp.py:generate_simple_ddd_data"]}
{"id": "C242", "title": "gen_did_scalable satisfies parallel trends", "statement": "(Violated.) Given the covariates, the difference in differences of mean outcomes between a treated cohort and the never treated in data of gen_did_scalable equals the documented effect att_base*g*(t-g+1). It is off by (t-s)*g/10 times the outcome index (about 210), because the term that cancels in the triple difference is kept in the two-way design.", "quantifier": "all cohorts, periods, covariates with non-zero outcome index and mean-zero noise", "why_tests_cant": "tests on the generated data compare implementations with each other, not with the documented effect", "anchors": ["moderndid/core/data.py:gen_did_scalable", "moderndid/core/data.py:_compute_did_outcome"]}
{"id": "C243", "title": "Reported truths of the triple-difference generators", "statement": "Given covariates and groups, oracle_att of gen_dgp_2periods has mean zero and is nan exactly without treated eligible units; prob_g2_p1 and prob_g3_p1 of gen_dgp_mult_periods are positive and add up to one and es_0_oracle has mean 10*prob_g2_p1 + 25*prob_g3_p1. (Violated: prob_g2_p1 and prob_g3_p1 are the proportions of eligible units of cohorts 2 and 3, as documented.)", "quantifier": "all samples, covariates, groups and mean-zero noise", "why_tests_cant": "statements about expectations and about all samples", "anchors": ["moderndid/didtriple/dgp.py:gen_dgp_2periods", "moderndid/didtriple/dgp.py:gen_dgp_mult_periods"]}
{"id": "C244", "title": "Simulated continuous-treatment panel", "statement": "simulate_cont_did_data returns a balanced panel; by default each group has probability 1/num_time_periods, given probabilities are normalised; the difference in mean outcome changes between a treated group at dose d and the never treated is linear*d + quadratic*d^2 from the group's first period on and zero before. (Violated: any num_groups is accepted - with default probabilities every value other than num_time_periods raises; D is zero in untreated unit-periods - it is the dose in every period of a treated unit.)", "quantifier": "all sample sizes, numbers of periods and groups, probabilities, doses and mean-zero noise", "why_tests_cant": "distributional statements for all parameters", "anchors": ["moderndid/core/data.py:simulate_cont_did_data"]}
{"id": "C245", "title": "Binning of factor values", "statement": "bin_factor: '!bin::n' replaces every value by the smallest value of its block of n consecutive distinct values counted from the smallest ('!!bin::n': from the largest), and n=0 is refused; 'bin::n' on numbers rounds down to a multiple of n; '@pattern' maps all matching values to the smallest one and is refused if none matches; a list maps all listed values to the first listed one that occurs; a dict gives a value the name of the last entry listing it, always judged by the original value, and leaves the others. (Violated for text with dict: names longer than the longest value are cut, so bins listed separately can be merged.)", "quantifier": "all arrays, block sizes, patterns, lists and dictionaries", "why_tests_cant": "tests bin a few short arrays; ties, incomplete blocks, overlapping dictionary entries and name lengths range over unbounded inputs", "anchors": ["moderndid/didhonest/utils.py:bin_factor", "moderndid/didhonest/utils.py:_create_consecutive_groups", "moderndid/didhonest/utils.py:_apply_grouping", "moderndid/didhonest/utils.py:_handle_dict_bin_spec"]}
{"id": "C246", "title": "Dummy variables and interactions", "statement": "create_interactions returns one 0/1 column per observed level that is not a reference and is kept, in increasing order, one exactly in the rows of that level; without references rows sum to one; interactions with a number carry the number, interactions of two factors have one column per pair that occurs. Names of dummies are distinct. (Violated: a reference that does not occur is silently ignored, leaving columns that sum to one; names of interactions of two factors can coincide.)", "quantifier": "all factor arrays, second variables, reference and keep lists", "why_tests_cant": "must hold for every pattern of levels and co-occurrence, tests check shapes on five rows", "anchors": ["moderndid/didhonest/utils.py:create_interactions"]}
{"id": "C247", "title": "The printed p-value and the star of a two-period result tell the same story", "statement": "With analytical standard errors the printed triple-difference estimate is starred exactly if its printed p-value is below alpha; the printed two-period estimate is starred only if its p-value is below 0.05, and always if it is below 0.04998. (Violated at exactly 1.96 standard errors; violated with bootstrap standard errors, whose critical value differs from the normal one used for the p-value; violated if the bootstrap yields no positive standard error: then every nonzero estimate is starred and no p-value printed.)", "quantifier": "every estimate, every positive standard error, every level alpha in (0,1), every bootstrap critical value, and every bootstrap standard error that is zero, negative or NaN", "why_tests_cant": "The agreement of an interval built from 1.96 or a normal quantile and a p-value built from the normal distribution function is a statement over all real estimates; it needs bounds on the normal distribution function.", "anchors": ["moderndid/drdid/format.py:format_did_result", "moderndid/didtriple/format.py:format_ddd_panel_result", "moderndid/core/format.py:compute_significance", "moderndid/drdid/estimators/drdid_imp_panel.py:drdid_imp_panel", "moderndid/didtriple/estimators/ddd_panel.py:ddd_panel"]}
{"id": "C248", "title": "The interval of 1.96 standard errors has coverage between 0.95 and 0.95002", "statement": "If the estimate is normal around the effect with the reported standard error as its standard deviation, the interval that the two-period estimators return (estimate plus and minus 1.96 standard errors) contains the effect with probability strictly above 0.95 and strictly below 0.95002.", "quantifier": "every effect and every positive standard error", "why_tests_cant": "Coverage is a probability over all samples; simulation would need billions of draws to distinguish 0.95 from 0.95002.", "anchors": ["moderndid/drdid/estimators/drdid_imp_panel.py:drdid_imp_panel", "moderndid/drdid/estimators/reg_did_panel.py:reg_did_panel", "moderndid/drdid/estimators/std_ipw_did_panel.py:std_ipw_did_panel"]}
{"id": "C249", "title": "att_gt without covariates is unbiased under parallel trends", "statement": "For a balanced panel with outcomes random and cohorts, periods and weights fixed, if the untreated outcome of every cohort has the same expected (weighted-mean) change between any two periods and units do not react more than `anticipation` periods before treatment, then att_gt's estimate for cohort g and period t (no covariates, any comparison group and base period option) has expectation exactly: the weighted mean effect on cohort g at t minus the weighted mean effect on cohort g at the base period; hence the effect on the treated for t >= g, and zero for a pre-period earlier than g - anticipation.", "quantifier": "all balanced panels, random outcomes, weights, cohort structures, control group and base period options, and cells", "why_tests_cant": "expectations over every outcome distribution satisfying an assumption cannot be sampled", "anchors": ["moderndid/did/compute_att_gt.py:run_att_gt_estimation", "moderndid/did/compute_att_gt.py:compute_att_gt", "moderndid/core/preprocess"]}
{"id": "C250", "title": "aggte is unbiased for the share-weighted mean effects", "statement": "If every att_gt estimate of a result is unbiased for its cell effect, then the simple, dynamic (event-time), calendar and group aggregates of aggte have as expectation exactly the corresponding averages of the cell effects weighted by the cohorts' shares of units (for a cohort: the plain mean over its post-treatment periods).", "quantifier": "all results, cell effects, cohort sizes, and random estimates", "why_tests_cant": "a statement about expectations under every distribution", "anchors": ["moderndid/did/compute_aggte.py:compute_aggte"]}
{"id": "C251", "title": "Regression and doubly robust DiD are unbiased when the outcome model holds", "statement": "Given covariates, treatment and weights, if the expected outcome change of each unit is a linear function of its covariates plus, for treated units, an effect, then reg_did_panel, drdid_panel and drdid_imp_panel have expectation exactly the weighted mean effect on the treated units; for the last two whatever the propensity scores are, right or wrong.", "quantifier": "all samples, covariates with full rank among comparison units, weights, effects, outcome noise, propensity-score routines and trimming levels", "why_tests_cant": "double robustness is a statement about every wrong propensity model and every outcome distribution", "anchors": ["moderndid/drdid/estimators/reg_did_panel.py:reg_did_panel", "moderndid/drdid/estimators/drdid_panel.py:drdid_panel", "moderndid/drdid/estimators/drdid_imp_panel.py:drdid_imp_panel"]}
{"id": "C252", "title": "Reported covariates of the simulated data are standardised", "statement": "With independent standard normal raw covariates, the first reported covariate of the DDD and DiD generators has mean zero and variance one, the second and fourth have mean zero, and the third has mean 1/4453 (its hard-coded centring constant 0.21887 is 0.21888 rounded down).", "quantifier": "all probability spaces carrying four independent standard normals", "why_tests_cant": "a simulated mean cannot distinguish zero from 1/4453, and says nothing exact about the others", "anchors": ["moderndid/didtriple/dgp.py:_transform_covariates", "moderndid/core/data.py:gen_did_scalable"]}
{"id": "C253", "title": "Triple differences are unbiased when the outcome models hold", "statement": "Given covariates, subgroups and weights, if the expected outcome changes of subgroups 1, 2 and 3 are linear in the covariates and that of subgroup 4 is, apart from the treatment effect, the one triple-difference parallel trends implies, then the estimate of ddd_panel with est_method reg or dr has expectation exactly the weighted mean effect on the treated-and-eligible units, whatever the propensity scores are.", "quantifier": "all samples, covariates with full rank in each comparison subgroup, weights, effects, noise, propensity-score routines and trimming", "why_tests_cant": "a statement about expectations for every outcome distribution and every wrong propensity model", "anchors": ["moderndid/didtriple/estimators/ddd_panel.py:ddd_panel", "moderndid/didtriple/nuisance.py:compute_all_did"]}
{"id": "C254", "title": "Analytic standard error without covariates, and its bias", "statement": "Without covariates the squared analytic standard error of reg_did_panel equals the sum over the two arms of the weighted squared deviations from the arm's mean change divided by the arm's squared total weight. Hence with equal weights and uncorrelated outcome changes its expectation is s1(n1-1)/n1^2 + s0(n0-1)/n0^2, while the variance of the estimate is s1/n1 + s0/n0: the reported variance is too small on average by exactly s1/n1^2 + s0/n0^2.", "quantifier": "all samples and weights; all distributions of uncorrelated outcome changes with arm-wise mean and variance", "why_tests_cant": "the expected squared standard error over every distribution cannot be observed in tests, and the bias is of the order of simulation noise", "anchors": ["moderndid/drdid/estimators/reg_did_panel.py:reg_did_panel"]}
{"id": "C255", "title": "did_multiplegt effects are unbiased, placebos have mean zero, and normalised effects flip sign for decreases", "statement": "Take any design (unbalanced entry and exit, missing outcomes, weights, any options) whose units are observed in consecutive periods. If outcomes before the first switch equal the status-quo outcome in mean and status-quo outcomes of units with the same baseline follow the same trend, then each reported effect has expectation exactly the weighted mean, over the switchers used, of the expected difference between outcome and status-quo outcome, and each placebo has expectation zero. The normalised effect is the same sum divided by the weighted sum of absolute cumulated treatment changes; hence if one unit of treatment shifts the outcome by b, the normalised effect has expectation b when all changes are increases. (Violated when all changes are decreases: a per-unit-of-treatment effect b is reported as -b.)", "quantifier": "all designs, outcome distributions, trends, effects, horizons and options", "why_tests_cant": "a statement about expectations under every outcome distribution satisfying parallel trends", "anchors": ["moderndid/didinter/compute_did_multiplegt.py", "moderndid/didinter/did_multiplegt.py:did_multiplegt"]}
{"id": "C256", "title": "What the repeated-cross-section estimators estimate under linear models", "statement": "With linear conditional mean outcomes in every group and period and parallel trends given covariates, the default drdid_rc estimate has expectation exactly the weighted mean effect over all treated observations, whatever the propensity scores and however the covariates of the treated differ between periods. reg_did_rc and drdid_trad_rc have that expectation if the treated have the same covariate means in both periods. (Violated for reg_did_rc and drdid_trad_rc otherwise: with no effect at all they can have means 4 and 3 while drdid_rc has mean 0.)", "quantifier": "all samples, covariates with full rank per cell, weights, coefficient vectors, noise, propensity-score routines and trimming", "why_tests_cant": "a statement about expectations for every outcome distribution and every wrong propensity model", "anchors": ["moderndid/drdid/estimators/drdid_rc.py:drdid_rc", "moderndid/drdid/estimators/drdid_trad_rc.py:drdid_trad_rc", "moderndid/drdid/estimators/reg_did_rc.py:reg_did_rc"]}
{"id": "C257", "title": "Triple differences on repeated cross-sections are unbiased under linear models", "statement": "If the mean outcomes of every subgroup and period are linear in the covariates and subgroup 4 follows, apart from the effect, the trend that triple-difference parallel trends implies, then whenever ddd_rc with est_method dr returns, its estimate has expectation exactly the weighted mean effect on the observations of subgroup 4, whatever the propensity scores and however the covariates shift between periods.", "quantifier": "all samples, covariates with full rank in each subgroup and period, weights, coefficient vectors, noise, propensity-score routines and trimming", "why_tests_cant": "a statement about expectations for every outcome distribution and every wrong propensity model", "anchors": ["moderndid/didtriple/estimators/ddd_rc.py:ddd_rc", "moderndid/didtriple/nuisance_rc.py:compute_all_did_rc"]}
{"id": "C258", "title": "reg_did_panel is consistent and its analytic 95% interval covers in large samples", "statement": "When units are drawn independently from a population with finite weighted second moments, both arms present, a full-rank comparison design and conditional parallel trends with a linear model, then with probability one reg_did_panel reports an estimate from some sample size on, the estimates tend to the weighted mean effect on the treated, sqrt(n) times the reported standard error tends to the standard deviation of the influence function, and the probability that [lci, uci] contains the effect tends to the normal probability of [-1.96, 1.96], a number between 0.95 and 0.95002.", "quantifier": "every population and sequence of independent draws from it, every finite set of covariates, every weight function with the stated moments; the limit over all sample sizes", "why_tests_cant": "consistency and coverage are limits over all sample sizes of probabilities over all samples; a simulation sees finitely many samples of a few sizes from a few populations", "anchors": ["moderndid/drdid/estimators/reg_did_panel.py:reg_did_panel", "moderndid/drdid/estimators/reg_did_panel.py:_get_influence_quantities", "moderndid/drdid/estimators/reg_did_panel.py:_compute_influence_function"]}
{"id": "C259", "title": "Cells of att_gt with regression adjustment: consistent, and pointwise intervals with correct limiting coverage, until the NaN tolerance", "statement": "For independent draws of panel units from any population in which a cohort g, a period t and a base period b before the anticipation window satisfy no anticipation, conditional parallel trends with a linear model relative to the documented comparison units (never treated, or not yet treated in both periods), full rank and finite second moments: with probability one the cell att(g,t) of att_gt(est_method='reg') is estimated from some sample size on and converges to the mean effect of treatment on cohort g in period t; sqrt(n) times its standard error sqrt(mean(psi^2)/n) converges to the standard deviation of the influence function; the probability that att plus/minus z(1-alpha/2) times that standard error contains the effect converges to exactly 1-alpha. (Violated in one respect: every standard error not above sqrt(eps)*10, about 1.5e-7, is replaced by NaN, so the reported standard error is not equivariant to the unit of measurement of the outcome, and in every population it is NaN from some sample size on.)", "quantifier": "all populations with finite second moments, all cohorts, periods, base periods, anticipation, control groups and covariate sets satisfying the assumptions, all confidence levels; almost every infinite sample", "why_tests_cant": "Consistency and limiting coverage are statements about a limit over all sample sizes and about a probability over all samples; a simulation checks a few populations and sizes with Monte Carlo error.", "anchors": ["moderndid/did/compute_att_gt.py:_run_drdid", "moderndid/did/att_gt.py:att_gt", "moderndid/drdid/estimators/reg_did_panel.py:reg_did_panel"]}
{"id": "C260", "title": "Aggregated effects with estimated cohort shares: consistent, with correct limiting coverage", "statement": "For independent draws of panel units from any population satisfying the assumptions of C259 for every post-treatment cell involved: with probability one, from some sample size on, the simple aggregate, the effect at an event time, the effect in a calendar period and the effect of a cohort are reported; each converges to the average of the population cell effects (weighted by the population shares of the cohorts, or plain over periods for a cohort); sqrt(n) times sqrt(mean(psi^2)/n), psi being the influence function reported, converges to the standard deviation of the population influence, which contains the term for the estimated shares; the probability that estimate plus/minus z(1-alpha/2) times that standard error contains the population aggregate converges to exactly 1-alpha.", "quantifier": "all populations with finite second moments, all finite tables of cohorts and periods, all event times, periods and cohorts covered, all confidence levels; almost every infinite sample", "why_tests_cant": "Consistency and limiting coverage are statements about a limit over all sample sizes and a probability over all samples; whether the correction for estimated weights is right cannot be seen from any one data set.", "anchors": ["moderndid/did/compute_aggte.py:compute_aggte", "moderndid/did/compute_aggte.py:_get_agg_inf_func", "moderndid/did/compute_aggte.py:_compute_weight_inf_func"]}
{"id": "C261", "title": "Overall dynamic, calendar and group effects: consistent, with correct limiting coverage", "statement": "Under the same assumptions, the overall effects of the dynamic aggregation (plain mean over the event times from zero on within the requested range), of the calendar aggregation (plain mean over the periods with a post-treatment cell) and of the group aggregation (mean of the cohort effects weighted by estimated cohort shares) are reported from some sample size on with probability one, converge to the same combination of population effects, and estimate plus/minus z(1-alpha/2) times sqrt(mean(psi^2)/n) contains that combination with probability converging to exactly 1-alpha.", "quantifier": "all populations with finite second moments, all finite tables of cohorts and periods, all event-time ranges, all confidence levels; almost every infinite sample", "why_tests_cant": "The claim is about a limit over all sample sizes and a probability over all samples of a two-level aggregate with estimated weights.", "anchors": ["moderndid/did/compute_aggte.py:compute_aggte", "moderndid/did/aggte.py:aggte"]}
{"id": "C262", "title": "Two-period triple differences with regression adjustment: consistent, with correct limiting coverage", "statement": "For independent draws of panel units from any population in which, without treatment, the mean change of the treated and eligible units would have been what the linear regressions of the change on the covariates in the treated-ineligible and the eligible-untreated units less that in the untreated-ineligible units predict (no single comparison needs parallel trends): with probability one, from some sample size on, ddd_panel(est_method='reg') reports an estimate; it converges to the weighted mean effect on the treated and eligible units; sqrt(n) times the reported standard error converges to the standard deviation of the influence function of the three regressions together; and the probability that the reported interval contains the effect converges to exactly 1-alpha. The influence functions of the three subsamples, which share the treated and eligible units and have different sizes, are combined with the right factors.", "quantifier": "all populations with finite second moments, nonnegative weights, any number of covariates including an intercept with regular Gram matrices, all confidence levels; almost every infinite sample", "why_tests_cant": "Consistency and limiting coverage are limits over all sample sizes and a probability over all samples; a wrong rescaling of the subsample influence functions changes no estimate and can only be seen in the coverage over repeated samples.", "anchors": ["moderndid/didtriple/estimators/ddd_panel.py:ddd_panel", "moderndid/didtriple/nuisance.py:compute_all_did", "moderndid/didtriple/nuisance.py:compute_all_nuisances"]}
{"id": "C263", "title": "Without covariates every two-period method reports the same influence function", "statement": "Without covariates (an intercept only) and with scores below the trimming level, the panel estimators (doubly robust, regression, standardised and Horvitz-Thompson inverse probability weighting, improved doubly robust) all return the influence function of the difference of the weighted mean changes of the two groups, so their standard errors and intervals coincide; the repeated cross-section estimators (regression, standardised weighting, traditional, locally efficient and both improved doubly robust) all return that of the difference in differences of the four weighted cell means. The corrections for estimating regressions and scores cancel exactly.", "quantifier": "all samples, outcomes, weights with weight in every group, and every constant score strictly between 0 and 1 and below the trimming level", "why_tests_cant": "An equality of influence functions of eleven procedures for every sample; tests compare a few data sets up to rounding, and a wrong correction term that happens to vanish on them would go unnoticed.", "anchors": ["moderndid/drdid/estimators/drdid_panel.py:drdid_panel", "moderndid/drdid/estimators/reg_did_panel.py:reg_did_panel", "moderndid/drdid/estimators/std_ipw_did_panel.py:std_ipw_did_panel", "moderndid/drdid/estimators/ipw_did_panel.py:ipw_did_panel", "moderndid/drdid/estimators/drdid_imp_panel.py:drdid_imp_panel", "moderndid/drdid/estimators/drdid_rc.py:drdid_rc", "moderndid/drdid/estimators/reg_did_rc.py:reg_did_rc", "moderndid/drdid/estimators/std_ipw_did_rc.py:std_ipw_did_rc", "moderndid/drdid/estimators/drdid_trad_rc.py:drdid_trad_rc", "moderndid/drdid/estimators/drdid_imp_rc.py:drdid_imp_rc", "moderndid/drdid/estimators/drdid_imp_local_rc.py:drdid_imp_local_rc"]}
{"id": "C264", "title": "The default estimation method without covariates: consistent, with correct limiting coverage, cells and aggregates", "statement": "For independent draws of panel units from any population with unconditional parallel trends and no anticipation, without covariates and with the share of treated weight in each cell below the trimming level (0.995): every cell of att_gt with est_method='dr' (the default) or 'ipw', and every aggregate computed from these cells by aggte (simple; each event time, period and cohort; overall dynamic, calendar and group effects), is reported from some sample size on with probability one, converges to the (mean) effect of treatment on the treated, has a standard error that converges to the standard deviation of the influence of the difference of mean changes, and an interval whose coverage probability converges to exactly 1-alpha (the standard error without its NaN tolerance, cf. C259). The two-period functions drdid_panel and std_ipw_did_panel satisfy the same with their 1.96 intervals (between 95% and 95.002%).", "quantifier": "all populations with finite second moments of weights and weighted changes, nonnegative weights, both comparison groups, any anticipation, all score bounds 0 < lo <= hi < 1 and trimming levels, all confidence levels; almost every infinite sample", "why_tests_cant": "Limits over all sample sizes and probabilities over all samples; simulations cannot tell exact from approximate limiting coverage.", "anchors": ["moderndid/did/compute_att_gt.py:run_drdid", "moderndid/drdid/estimators/drdid_panel.py:drdid_panel", "moderndid/drdid/estimators/std_ipw_did_panel.py:std_ipw_did_panel", "moderndid/did/compute_aggte.py:compute_aggte"]}
{"id": "C265", "title": "The printed summary of a two-period estimate describes the estimator that ran", "statement": "For every accepted call of drdid, ipwdid or ordid, title and data line of the printed result name the estimator that was run, and the inference lines report a bootstrap exactly if one was run, with its kind and number of replications. Where the weights are printed as normalised (Hajek-type), a common change of everybody's outcome leaves the estimate unchanged. (Holds for est_method='std_ipw'. Violated for the default est_method='ipw': the unnormalised Horvitz-Thompson estimator is always printed as normalised, although its estimate moves by c times one minus the comparison units' total weight when c is added to every later outcome. Violated: the printed number of covariates is the number of columns of the user's frame minus four, wrong as soon as there is a weight or an unused column, -1 for cross-sections without covariates; the printed number of observations includes rows dropped for missing values.)", "quantifier": "all options, both data structures, all three functions; all samples, fitted scores, shifts; all frames", "why_tests_cant": "All options and samples; a snapshot test of the printout fixes whatever text the code produces.", "anchors": ["moderndid/drdid/format.py:format_did_result", "moderndid/drdid/ipwdid.py:ipwdid", "moderndid/drdid/drdid.py:drdid", "moderndid/drdid/ordid.py:ordid", "moderndid/drdid/estimators/ipw_did_panel.py:ipw_did_panel"]}
{"id": "C266", "title": "Printed triple-difference results describe what was computed", "statement": "Printed results of ddd() and agg_ddd() state the level, variable names, kind of standard errors and of bands that were used: group-time results name the user's columns, two-period results report the bootstrap exactly if there was one, aggregations print the level given to agg_ddd and their overall interval has that coverage for a normal estimate; when every group code is a whole number, the group table has one line per code with the number of its units, and the counts add up to the number of units. (Violated: two-period results always name the variables y and partition; group-time results always state analytical standard errors, also with bootstrap; rows of an aggregation are labelled simultaneous although the critical value fell back to the pointwise one; a group-time panel result with never-treated units coded infinity, as documented, cannot be printed at all.)", "quantifier": "all options, levels, bootstrap critical values and lists of group codes", "why_tests_cant": "All options and code lists; tests print a few results.", "anchors": ["moderndid/didtriple/format.py:format_ddd_mp_result", "moderndid/didtriple/format.py:format_ddd_panel_result", "moderndid/didtriple/format.py:format_ddd_agg_result", "moderndid/didtriple/compute_agg_ddd.py:_batched_bootstrap", "moderndid/didtriple/estimators/ddd_panel.py:ddd_panel"]}
{"id": "C267", "title": "did_multiplegt with bootstrap reports bootstrap inference", "statement": "With boot=True, the standard error of every effect and placebo of did_multiplegt is the sample standard deviation of its bootstrap replicates (missing if fewer than two exist) and its interval has the requested coverage for a normal estimate with that standard error; a whole-number ci_level and the cluster variable are printed as given. (Violated: the average total effect, the test of equal effects and the joint placebo test never use the bootstrap - with one effect and a unit change in treatment, the average total effect and the effect are the same number, reported with two different standard errors; the printed summary calls bootstrap standard errors analytical, never prints the covariates, and prints a 99.5% interval as 99%.)", "quantifier": "all analytical results, all bootstrap replicates (with any missing entries), all confidence levels and printed options", "why_tests_cant": "A test sees a few draws; that no replicate of any bootstrap can change the average total effect or the tests is a statement about all of them.", "anchors": ["moderndid/didinter/compute_did_multiplegt.py:compute_did_multiplegt", "moderndid/didinter/compute_did_multiplegt.py:_compute_ate", "moderndid/didinter/bootstrap.py:cluster_bootstrap", "moderndid/didinter/format.py:format_didinter_result"]}
{"id": "C268", "title": "An integer random_state makes results reproducible", "statement": "With an integer random_state, two runs of att_gt, aggte or cont_did on the same data report the same bootstrap results, whatever entropy the machine delivers and whatever was computed before; an effect of aggte that rests on a single cell gets the draws of that cell in att_gt for the same integer. (Holds for att_gt without a second cluster variable, aggte, and cont_did dose responses. Violated for cont_did event studies and the overall effect of the cck estimator: event-time effects, band and overall standard error never use random_state, so different seeds give the same draws and equal seeds different ones. Violated for clustervars=[idname, v]: cluster codes follow the arbitrary order of a set of labels, so the same random numbers are attached to different clusters.)", "quantifier": "all seeds, all sources of entropy and numbers of earlier requests, all influence functions, all orders in which distinct labels may be returned", "why_tests_cant": "Entropy and the order of hashed labels cannot be enumerated by tests; a test that passes on one machine says nothing about the next run.", "anchors": ["moderndid/did/mboot.py:mboot", "moderndid/core/numba_utils.py:multiplier_bootstrap", "moderndid/didcont/estimation/process_aggte.py:get_se", "moderndid/didcont/estimation/process_panel.py:pte", "moderndid/did/att_gt.py:att_gt", "moderndid/did/compute_aggte.py:compute_aggte"]}
{"id": "C269", "title": "Repeated cross-sections without covariates: six estimators consistent, with correct limiting coverage", "statement": "For independent draws of observations from any population of two cross-sections in which, without treatment, the mean outcomes of the treated and comparison groups would have changed in parallel, with positive weight in the four cells, finite second moments and the treated share of the weight below the trimming level: with probability one reg_did_rc, std_ipw_did_rc, drdid_trad_rc, drdid_rc, drdid_imp_rc and drdid_imp_local_rc report from some sample size on, their estimates converge to the weighted mean effect on the treated observations of the second period, sqrt(n) times the reported standard error converges to the standard deviation of the influence of the difference in differences of four means, and the probability that the reported interval (1.96 standard errors) contains the effect converges to a limit between 95% and 95.002%.", "quantifier": "all populations with these properties, nonnegative weights, all six methods, all clipping and trimming bounds; almost every infinite sample", "why_tests_cant": "Consistency and limiting coverage are statements about a limit over all sample sizes and a probability over all samples; a simulation has error of its own.", "anchors": ["moderndid/drdid/estimators/drdid_rc.py:drdid_rc", "moderndid/drdid/estimators/drdid_trad_rc.py:drdid_trad_rc", "moderndid/drdid/estimators/std_ipw_did_rc.py:std_ipw_did_rc", "moderndid/drdid/estimators/reg_did_rc.py:reg_did_rc", "moderndid/drdid/estimators/drdid_imp_rc.py:drdid_imp_rc", "moderndid/drdid/estimators/drdid_imp_local_rc.py:drdid_imp_local_rc"]}
{"id": "C270", "title": "The units of the influence function of att_gt are the units whose cohorts and clusters are handed on", "statement": "With panel=False and distinct ids, the table of units whose cohorts (G) aggte uses and whose clusters the bootstrap uses lists the observations of the estimation data in the same order as the influence function: entry k of any cell's influence function is the rescaled influence value of the observation in row k, zero outside the cell. With allow_unbalanced_panel=True the influence function is summed by id and its entries are in increasing order of the id, while the table is in order of first appearance after sorting by period, cohort and id: the two agree exactly when the table happens to be sorted by id (without an id column: when the rows of the data were already in order of period and cohort). (Violated otherwise: four observations for which every influence value is paired with the wrong cohort; the variance of an aggregate changes.)", "quantifier": "all data sets, cells, comparison groups and influence values", "why_tests_cant": "The misalignment produces no error and leaves the estimates unchanged; whether it happens depends on the order of the rows of the file.", "anchors": ["moderndid/did/compute_att_gt.py:run_drdid", "moderndid/core/preprocess/tensors.py:create_time_invariant_data", "moderndid/core/preprocess/transformers.py:RepeatedCrossSectionHandler", "moderndid/core/preprocess/transformers.py:DataSorter", "moderndid/did/att_gt.py:att_gt"]}
{"id": "C271", "title": "Standard errors of att_gt with panel=False when ids recur", "statement": "With panel=False and allow_unbalanced_panel=False the reported analytical variance is (n / number of distinct ids) squared times the variance of the estimator over its observations, hence equal to it exactly when no id occurs twice (violated: a two-period panel declared as cross-sections gets twice the standard error); with the universal base period such a call raises as soon as one cell is estimated. With allow_unbalanced_panel=True the reported variance is the variance clustered by id.", "quantifier": "all data sets, cells, influence values and numbers of observations per id", "why_tests_cant": "The factor depends on how often ids recur; the tests use cross-sections with distinct ids, for which it is one.", "anchors": ["moderndid/did/att_gt.py:att_gt", "moderndid/did/compute_att_gt.py:run_drdid", "moderndid/did/compute_att_gt.py:_process_gt_cell_did", "moderndid/did/compute_att_gt.py:compute_att_gt"]}
{"id": "C272", "title": "allow_unbalanced_panel=True with panel=True", "statement": "On balanced data the option changes nothing: the prepared data and all estimates are those without it. (Violated on unbalanced panels: no outcome tensor is built, the first cell with treated and comparison units raises, and att_gt never reports an estimate.)", "quantifier": "all panels, base-period options, comparison groups, anticipation levels and 2x2 estimators", "why_tests_cant": "That a call never succeeds on a whole class of data sets cannot be seen from examples of it failing.", "anchors": ["moderndid/core/preprocess/transformers.py:ConfigUpdater", "moderndid/core/preprocess/transformers.py:PanelBalancer", "moderndid/core/preprocess/tensors.py:UnbalancedPanelTensorFactory", "moderndid/did/compute_att_gt.py:run_att_gt_estimation"]}
{"id": "C273", "title": "Filling the panel of did_multiplegt", "statement": "The panel analysed by did_multiplegt has exactly one row for every unit and period of the data; observed rows keep outcome, treatment and cluster, added rows have no outcome, no treatment and weight zero, and the switch date, baseline, direction and number of horizons of the unit stand on all its rows. drop_missing_preswitch=True changes exactly the rows whose treatment is missing between the unit's first recorded treatment and its first switch: their outcome becomes missing too. If all units are observed in the first period, clustered standard errors use every unit's cluster. (Violated otherwise: the cluster is read from the unit's row in the first period of the data, which for later entrants is an added row without cluster; such units are left out of the clustered standard error, so it does not depend on their influence values at all, while the estimate does.)", "quantifier": "all panels with distinct (unit, period) rows, all patterns of entry and exit, all influence values and cluster assignments", "why_tests_cant": "The tests cluster balanced panels; the loss of units is silent and depends on the pattern of entry.", "anchors": ["moderndid/core/preprocess/transformers.py:DIDInterPanelBalancer", "moderndid/core/preprocess/transformers.py:SwitcherIdentifier", "moderndid/core/preprocess/transformers.py:DIDInterDataPreparer", "moderndid/didinter/compute_did_multiplegt.py:_compute_did_effects"]}
{"id": "C274", "title": "What att_gt's sample-size check guarantees", "statement": "After preprocessing a balanced duplicate-free panel with time-invariant cohorts, att_gt proceeds exactly when some cohort is treated and, with control_group='nevertreated', at least (number of covariates)+5 units are never treated (including a last cohort relabelled as never treated); the size compared for a cohort is its number of units, the cohorts named in the warning are exactly those with fewer units, and dropping covariates never turns acceptance into refusal. (Violated outside this: when the balancer drops every never-treated unit the call is accepted with an empty comparison group although one remaining unit would be refused; with panel=False rows over all periods are counted, so a single never-treated unit observed often enough is accepted.)", "quantifier": "all panels, cohorts, anticipation values, comparison groups and numbers of covariates", "why_tests_cant": "the check depends on every cohort's size and on what earlier preprocessing steps removed", "anchors": ["moderndid/core/preprocess/builders.py:_validate_transformed_data", "moderndid/core/preprocess/transformers.py:ConfigUpdater"]}
{"id": "C275", "title": "Cohort and balanced aggregation in the continuous-treatment module", "statement": "aggregate_att_gt(type='group') reports for each cohort the plain mean of its estimates in the evaluated periods from its treatment date on, with the matching mean of influence functions; its overall effect is the share-weighted average of these means and equals the cells combined with the weights of overall_weights. With balance_event=b the cohorts averaged at each event time 0..b are exactly those with at least b evaluated periods after their treatment date, every such event time in the requested window is reported and none above b. The reported critical value never makes the band narrower than the pointwise interval and is the bootstrap value whenever that is finite and at least the pointwise one. (Violated before treatment: at negative event times the composition of cohorts still changes.)", "quantifier": "all strictly increasing lists of periods and cohorts among them, all positive cohort shares, all estimates, event times and critical values", "why_tests_cant": "the identities must hold for every set of cohorts, periods and estimates", "anchors": ["moderndid/didcont/estimation/process_aggte.py:aggregate_att_gt", "moderndid/didcont/estimation/process_aggte.py:overall_weights", "moderndid/didcont/estimation/process_aggte.py:check_critical_value"]}
{"id": "C276", "title": "Cells and influence columns of the distributed triple difference", "statement": "ddd() on a Dask or Spark frame returns each group-time estimate next to its own influence column, and on two-period data estimates what the single machine estimates. (Alignment holds when every cohort-period pair gives an estimate; violated whenever the data contain a cohort already treated in the first period: the first columns are zero and every estimate stands next to the column of the estimate one cohort earlier. On periods t1<t2 with one treated cohort b, the only comparison is (b,t2) from base t1 when t1<b<=t2; violated when b<=t1, where the distributed call raises while one machine estimates, and when b>t2, where the universal base period reports the change from t2 back to t1.)", "quantifier": "all period lists, cohorts, base-period rules, cell estimators and failure patterns", "why_tests_cant": "ranges over every cohort structure and every pattern of cells without a base period", "anchors": ["moderndid/dask/_ddd_mp.py:dask_ddd_mp", "moderndid/spark/_ddd_mp.py:spark_ddd_mp", "moderndid/dask/_ddd.py:dask_ddd", "moderndid/didtriple/ddd.py:ddd"]}
{"id": "C277", "title": "Undocumented option values are refused", "statement": "att_gt refuses every option value outside the documented ones and runs the named rule for the documented ones. (On one machine exactly the documented values are accepted; with documented values the distributed run enumerates the cells of that base period and uses the named method and comparison group. Violated on Dask and Spark frames, which are handed over before the checks: with any other base_period string a cell is computed for every cohort and period with the period itself as base, so every estimate and influence value is 0 whatever the data; any other est_method runs the doubly robust estimator, any other control_group the not-yet-treated one; and for a level between 1 and 2 every interval has its lower end above its upper end.)", "quantifier": "all option strings and levels, all period lists, cohorts, outcomes, covariates, weights and partitionings", "why_tests_cant": "ranges over every string and every data set", "anchors": ["moderndid/did/att_gt.py:att_gt", "moderndid/dask/_did_mp.py:dask_att_gt_mp", "moderndid/spark/_did_mp.py:spark_att_gt_mp", "moderndid/distributed/_did_partition.py"]}
{"id": "C278", "title": "Two-period triple differences without covariates: all methods agree, consistent, with correct limiting coverage", "statement": "ddd_panel without covariates reports the same estimate, influence function and standard error for est_method 'dr' (the default), 'ipw' and 'reg', in every sample in which each comparison has weight in both subgroups and a treated share below the trimming level. For independent draws of panel units from any population with triple-difference parallel trends of the four subgroup means and such shares: with probability one the estimate converges to the weighted mean effect on the treated and eligible units, sqrt(n) times the reported standard error converges to the standard deviation of the influence on the four subgroup means, and the probability that the reported interval contains the effect converges to exactly 1-alpha.", "quantifier": "all three methods, all samples and all populations with finite second moments, nonnegative weights and treated shares below the trimming level, all confidence levels, any information matrix returned by the logit; almost every infinite sample", "why_tests_cant": "The agreement must hold for every sample, and consistency and coverage are limits over sample sizes and probabilities over all samples.", "anchors": ["moderndid/didtriple/estimators/ddd_panel.py:ddd_panel", "moderndid/didtriple/nuisance.py:compute_all_did", "moderndid/didtriple/nuisance.py:compute_all_nuisances", "moderndid/didtriple/nuisance.py:_compute_inf_func"]}
{"id": "C279", "title": "Distributed inference: same standard errors and critical values as one machine, except clusters in ddd and missing bands", "statement": "The inference stage of the distributed estimators (influence functions split by array_split, multipliers drawn on every worker, sums of draws added): (1) for every number of partitions and all multipliers the workers draw, the standard errors and critical value of the distributed multi-period ddd are those of the single-machine ddd without clusters for multipliers of the same length, and every single-machine outcome is reached; over independent multipliers the draws have the same variance on any number of partitions. (2) (Violated: the distributed ddd accepts cluster= and stores it in the result but never uses it; with m units per cluster sharing their influence value its draws have 1/m of the variance of the single machine's.) (3) The distributed att_gt, with and without clusters, reports the single machine's standard errors and critical value if every cell has an analytical standard error and varying draws have an interquartile spread above the tolerance. (Violated otherwise: where the single machine reports no critical value because one cell's draws have equal quartiles, the distributed version reports the pointwise normal quantile as if it were the simultaneous one.)", "quantifier": "all influence functions, numbers of partitions, numbers of draws, multipliers, cluster labels, levels and options", "why_tests_cant": "Agreement must hold for every split and every set of multipliers; tests compare one seed, for which the two programs draw different multipliers.", "anchors": ["moderndid/dask/_bootstrap.py:distributed_mboot_ddd", "moderndid/distributed/_bootstrap.py:_local_bootstrap", "moderndid/distributed/_bootstrap.py:compute_bootstrap_se", "moderndid/dask/_ddd_mp.py:dask_ddd_mp", "moderndid/dask/_did_mp.py:dask_att_gt_mp", "moderndid/didtriple/bootstrap/mboot_ddd.py:mboot_ddd", "moderndid/did/mboot.py:mboot"]}
{"id": "C280", "title": "Triple differences on repeated cross-sections without covariates: all methods agree, consistent, with correct limiting coverage", "statement": "ddd_rc without covariates returns, for est_method 'dr' (the default), 'ipw' and 'reg' alike, the triple difference of the eight weighted subgroup-by-period means and its influence function, in every sample with weight in the eight cells and, in each comparison, a treated share below the trimming level. For independent draws of observations from any population in which the trend of the mean untreated outcome of subgroup 4 is that of 3 plus that of 2 less that of 1, and such shares: with probability one the estimate converges to the weighted mean effect on the second-period observations of subgroup 4, sqrt(n) times the reported standard error converges to the standard deviation of the influence on the eight means, and the probability that the reported interval contains the effect converges to exactly 1-alpha.", "quantifier": "all three methods, all samples and all populations with finite second moments, nonnegative weights, weight in the eight cells and treated shares below the trimming level, all confidence levels, any information matrix returned by the logit; almost every infinite sample", "why_tests_cant": "The closed form must hold for every sample, and consistency and coverage are limits over sample sizes and probabilities over all samples.", "anchors": ["moderndid/didtriple/estimators/ddd_rc.py:ddd_rc", "moderndid/didtriple/nuisance_rc.py:compute_all_did_rc", "moderndid/didtriple/nuisance_rc.py:compute_all_nuisances_rc", "moderndid/didtriple/nuisance_rc.py:_compute_inf_func_rc"]}
{"id": "C281", "title": "att_gt(panel=False) without covariates, cell by cell: closed form, consistent, with correct limiting coverage", "statement": "For repeated cross-sections without covariates a group-time cell of att_gt is, for est_method 'dr', 'ipw' and 'reg' alike, the difference between the treated cohort and the comparison cohorts of the change of their weighted means between the base period and the period of the cell, with the matching influence function over all rows (zero outside the cell), in every sample in which the two arms have weight in both periods and the treated share is below the trimming level. For independent draws of observations from any population with no anticipation and parallel trends of the mean untreated outcomes of the two arms: with probability one the cell is estimated from some sample size on and its estimate converges to the weighted mean effect on the cohort's observations of the period, sqrt(n) times its standard error converges to the standard deviation of the influence, and the coverage of its pointwise interval converges to exactly 1-alpha.", "quantifier": "all three methods, both control groups, all anticipation lengths, all base periods before the anticipation window, all samples and all populations with finite second moments, nonnegative weights, weight in the four cells and treated shares below the trimming level; almost every infinite sample", "why_tests_cant": "The closed form must hold for every sample, and consistency and coverage are limits over sample sizes and probabilities over all samples.", "anchors": ["moderndid/did/compute_att_gt.py:run_att_gt_estimation", "moderndid/did/compute_att_gt.py:get_did_cohort_index", "moderndid/did/compute_att_gt.py:run_drdid", "moderndid/drdid/estimators/drdid_rc.py:drdid_rc"]}
{"id": "C282", "title": "aggte of att_gt(panel=False) without covariates: all aggregations consistent, with correct limiting coverage", "statement": "For repeated cross-sections without covariates, aggte's simple effect, its effects by event time, calendar period and cohort, and the overall effects of the dynamic, calendar and group aggregations converge, with probability one, to the means of the cell effects weighted by the population shares of the cohorts (among observations of all periods), plain means within a cohort and over event times and periods; sqrt(n) times the reported standard error converges to the standard deviation of the influence that includes the estimated shares; and the coverage of the reported pointwise interval converges to exactly 1-alpha. Cells that do not enter the aggregate may fail to be estimated.", "quantifier": "all lists of cells, all event windows, all methods, control groups and base periods, all populations in which the cells that enter satisfy the design and trends of C281; almost every infinite sample", "why_tests_cant": "Limits over sample sizes and probabilities over all samples, for any list of cells.", "anchors": ["moderndid/did/compute_aggte.py:compute_aggte", "moderndid/did/compute_att_gt.py:run_drdid"]}
{"id": "C283", "title": "ddd with several periods and a never-treated comparison, without covariates, cell by cell: closed form, consistent, with correct limiting coverage", "statement": "With panel data in several periods, the never-treated comparison and no covariates, a group-time cell of ddd is, for est_method 'dr', 'ipw' and 'reg' alike, the change of the mean outcome between the base period and the period of the cell of the eligible units of the cohort, less that of the cohort's ineligible units, less the same difference among never-treated units, with the matching influence function over all units (zero for units of other cohorts), in every sample in which the four arms are present and the share of eligible cohort units against each other arm is below the trimming level. For independent draws of units from any population in which ineligible units are unaffected, the cohort is not yet affected in the base period, and the gap in the trend of untreated outcomes between eligible and ineligible units is the same in the cohort as among never-treated units (no parallel trends across cohorts or across eligibility): with probability one the cell is estimated from some sample size on and its estimate converges to the mean effect on the cohort's eligible units, sqrt(n) times its standard error converges to the standard deviation of the influence, and the coverage of its pointwise interval converges to exactly 1-alpha.", "quantifier": "all three methods, all cells and base periods, all samples and all populations with finite second moments, all four arms present and shares below the trimming level; almost every infinite sample", "why_tests_cant": "The closed form must hold for every sample, and consistency and coverage are limits over sample sizes and probabilities over all samples.", "anchors": ["moderndid/didtriple/estimators/ddd_mp.py:_process_gt_cell", "moderndid/didtriple/estimators/ddd_mp.py:_compute_single_ddd", "moderndid/didtriple/estimators/ddd_mp.py:_process_single_control", "moderndid/didtriple/estimators/ddd_panel.py:ddd_panel"]}
{"id": "C284", "title": "agg_ddd in large samples: consistent, but its simple, event-time and calendar intervals undercover", "statement": "For ddd cells with a never-treated comparison and no covariates (C283), agg_ddd's simple effect and its effects by event time and by calendar period converge, with probability one, to the mean of the cells' effects on eligible units, each cell weighted by the population share of its whole cohort (eligible and ineligible units alike). sqrt(n) times the reported standard error converges to the standard deviation of the influence through the cells alone, and the coverage of the reported interval converges to the probability that a standard normal variable lies within the critical value times the ratio of that standard deviation to the one of the estimate. The variance of the estimate is exactly the variance the standard error reflects plus the variance of the influence through the estimated cohort shares. A user expects the coverage 1-alpha. (Violated: whenever two cohorts that enter an event-time effect differ in their effects, the coverage of its interval converges to a number strictly below 1-alpha, for every alpha.)", "quantifier": "all lists of cells, event windows, methods and base periods, all populations in which the cells that enter satisfy the design and trends of C283; almost every infinite sample; all alpha", "why_tests_cant": "Limits over sample sizes and probabilities over all samples, for any list of cells.", "anchors": ["moderndid/didtriple/compute_agg_ddd.py:_compute_simple", "moderndid/didtriple/compute_agg_ddd.py:_compute_eventstudy", "moderndid/didtriple/compute_agg_ddd.py:_compute_calendar", "moderndid/didtriple/compute_agg_ddd.py:_get_agg_inf_func", "moderndid/didtriple/estimators/ddd_mp.py:ddd_mp"]}
{"id": "C285", "title": "agg_ddd in large samples: the intervals of cohort effects and of the overall group effect are exact", "statement": "For ddd cells with a never-treated comparison and no covariates (C283), agg_ddd's effect of a cohort converges, with probability one, to the plain mean over the cohort's post-treatment periods of the effects on its eligible units. If every cohort of the data has a post-treatment cell, the overall group effect converges to the mean of the cohort effects weighted by the population shares of the whole cohorts. The coverage of both reported intervals converges to exactly 1-alpha: the cohort effects need no share, and the overall effect's influence function, unlike those of the simple, event-time and calendar effects (C284), does include the influence through the estimated shares.", "quantifier": "all lists of cells, cohorts, methods and base periods, all populations in which the cells that enter satisfy the design and trends of C283 and the effect varies; almost every infinite sample; all alpha", "why_tests_cant": "Limits over sample sizes and probabilities over all samples, for any list of cells.", "anchors": ["moderndid/didtriple/compute_agg_ddd.py:_compute_group", "moderndid/didtriple/compute_agg_ddd.py:_get_agg_inf_func", "moderndid/didtriple/estimators/ddd_mp.py:ddd_mp"]}
{"id": "C286", "title": "agg_ddd in large samples: the overall event-study and calendar intervals undercover", "statement": "For ddd cells with a never-treated comparison and no covariates (C283), agg_ddd's overall event-study effect converges, with probability one, to the plain mean, over the event times from 0 on that the cells cover within the requested range, of the event-time limits of C284, and the overall calendar effect to the plain mean of the calendar limits over the periods from the first cohort on, provided each of these periods has a post-treatment cell. The variance of both estimates is exactly the variance the reported standard error reflects plus the variance of the influence through the estimated cohort shares. A user expects intervals with coverage 1-alpha. (Violated: whenever the estimated shares contribute to the variance, the coverage of the overall event-study interval converges to a number strictly below 1-alpha, for every alpha.)", "quantifier": "all lists of cells, event windows, methods and base periods, all populations in which the cells that enter satisfy the design and trends of C283; almost every infinite sample; all alpha", "why_tests_cant": "Limits over sample sizes and probabilities over all samples, for any list of cells.", "anchors": ["moderndid/didtriple/compute_agg_ddd.py:_compute_eventstudy", "moderndid/didtriple/compute_agg_ddd.py:_compute_calendar", "moderndid/didtriple/compute_agg_ddd.py:_get_agg_inf_func", "moderndid/didtriple/estimators/ddd_mp.py:ddd_mp"]}
{"id": "C287", "title": "agg_ddd's event-time effects are the mean effect over treated units only when the eligible fraction does not vary with the effect", "statement": "In ddd only the eligible units of a cohort are treated, but agg_ddd weights a cell by the size of its whole cohort (documented as proportional to group size). The limit of its share-weighted effects minus the mean effect over the treated (each cell weighted by the population share of its eligible units) is minus the covariance over the cells of eligible fraction and effect, divided by the mean eligible fraction. If the eligible are the same fraction of every cohort that enters, the effect at an event time converges with probability one to the mean effect over the treated, as a user expects of an average treatment effect on the treated. (Violated: if eligible fraction and effect are correlated over the cohorts that enter, it converges with probability one to another number.)", "quantifier": "all lists of cells, event windows, methods and base periods, all populations in which the cells that enter satisfy the design and trends of C283; almost every infinite sample", "why_tests_cant": "Limits over sample sizes with probability one, for any list of cells and any population.", "anchors": ["moderndid/didtriple/compute_agg_ddd.py:compute_agg_ddd", "moderndid/didtriple/compute_agg_ddd.py:_compute_eventstudy", "moderndid/didtriple/agg_ddd.py:agg_ddd"]}
