{
 "C02": {
  "note": "proved for duplicate-free panels; both claims shown to fail with duplicate rows (…_violated)"
 },
 "C08": {
  "note": "consistency proved; the documented meaning of the duplicate count is refuted (…_violated)"
 },
 "C12": {
  "note": "table proved; agreement with the in-cell recomputation proved for a 0/1 eligibility column and refuted otherwise"
 },
 "C72": {
  "note": "all twelve two-period estimators: seven hold outright and ipw_did_rc with equal weights; for the other cases the exact gap is proved and the claim refuted (…_violated); the improved estimators assume an intercept and no trimmed observation"
 },
 "C74": {
  "note": "proved for DR and IPW, refuted for reg_did_panel (…_violated)"
 },
 "C34": {
  "note": "dynamic aggregation proved; exact rule of simple/group aggregation proved, the documented one proved for consecutive periods and refuted otherwise (…_violated)"
 },
 "C35": {
  "note": "proved for gap-free cells; refuted with gaps in the calendar (…_violated)"
 },
 "C37": {
  "note": "proved; for cohorts without post-treatment estimates the group claim is refuted (…_violated)"
 },
 "C38": {
  "note": "proved for a weight column called 'weights'; refuted for every other name (…_violated)"
 },
 "C76": {
  "note": "proved for group, dynamic, calendar; refuted for simple (…_violated)"
 },
 "C41": {
  "note": "proved for non-negative integer labels and for all ranked (non-integer) labels; agreement refuted for negative integer labels (…_violated)"
 },
 "C77": {
  "note": "proved without clusters and for equal cluster sizes; refuted for unequal sizes (…_violated)"
 },
 "C51": {
  "note": "proved when no skipped cell precedes an estimated one, and labels proved always; refuted for every data set with an always-treated cohort (…_violated)"
 },
 "C54": {
  "note": "every aggregate characterised; the overall group effect is proved a weighted average with dropna=True or when all cohorts have post-treatment cells, refuted otherwise (…_violated)"
 },
 "C78": {
  "note": "exact ratio proved; claim refuted (…_violated)"
 },
 "C79": {
  "note": "proved for the overall group effect; for simple, event-study and calendar the exact gap is proved and the claim refuted (…_violated)"
 },
 "C80": {
  "note": "refuted for more than two periods (…_violated)"
 },
 "C55": {
  "note": "proved for every path without missing treatments; a missing treatment hides a switch (…_violated)"
 },
 "C57": {
  "note": "proved for every frame (weights, missing outcomes, options) and in documented form for balanced panels over consecutive periods; refuted when the observed periods have a gap (…_violated)"
 },
 "C58": {
  "note": "refuted: reported = documented + 2x contribution of decreasing units; equal when all increase, minus the documented one when all decrease"
 },
 "C59": {
  "note": "exact characterisation of the horizons used; for placebos the bound admits horizons without estimate (…_violated)"
 },
 "C81": {
  "note": "refuted; exact condition for rows to survive proved"
 },
 "C82": {
  "note": "effects with same_switchers alone proved; both flags / placebo flag refuted"
 },
 "C83": {
  "note": "proved under Design Restriction 2; refuted with crossing"
 },
 "C84": {
  "note": "proved when no unit switches in period 0; refuted otherwise"
 },
 "C86": {
  "note": "proved for a common constant dose; refuted for changing doses"
 },
 "C87": {
  "note": "refuted, general and concrete"
 },
 "C88": {
  "note": "proved when every horizon has an estimate; refuted otherwise"
 },
 "C62": {
  "note": "matrices proved exact for every reference difference before the treatment; the search of rm misses the first difference and that of rmb/rmm uses a post-treatment one (…_violated); sdrm search proved exact"
 },
 "C63": {
  "note": "sd, sdb, sdm: reported interval proved equal to the identified set; sdrm: containment and nesting proved; rm: containment proved when the largest difference is not the first, refuted otherwise; infeasible restrictions refuted (…_violated)"
 },
 "C64": {
  "note": "agreement proved for all constructors and helpers; refuted for compute_bounds below the threshold and clip_values with lower > upper (…_violated)"
 },
 "C89": {
  "note": "exact meaning of the reported bound proved; the documented use refuted in three ways (…_violated)"
 },
 "C66": {
  "note": "proved for every history without an extended knot sequence and without rejected boundary/sequence calls; each exception exhibited (…_violated)"
 },
 "C67": {
  "note": "proved for every such history and for construction from df with data inside the boundary; refuted without data inside (…_violated)"
 },
 "C90": {
  "note": "proved for non-extended objects (C67_knot_sequence), refuted for every extended object of degree >= 1 (…_violated)"
 },
 "C68": {
  "note": "additive and tensor proved for all lists; glp: closed form proved (C68_glp_formula), equality proved for one active regressor, refuted for >= 2 (…_violated)"
 },
 "C91": {
  "note": "proved for additive/tensor and glp with <= 2 regressors; refuted with three (…_violated)"
 },
 "C92": {
  "note": "refuted (…_violated) for the band; the exact column shortfall of the selection step is proved for all configurations"
 },
 "C93": {
  "note": "proved for tensor and glp and for one additive regressor; refuted for additive with >= 2 (…_violated)"
 },
 "C94": {
  "note": "exact rule proved; highest derivative correct; refuted for every degree >= 1 (…_violated)"
 },
 "C69": {
  "note": "exact acceptance conditions proved for all four pipelines; the four departures are …_violated"
 },
 "C95": {
  "note": ""
 },
 "C96": {
  "note": "proved under uniqueness of (unit, period), refuted without (…_violated)"
 },
 "C97": {
  "note": "proved for subgroups that occur; refuted for empty ones (…_violated)"
 },
 "C70": {
  "note": "Renumbering modelled with the whole ContDID pipeline. Positive: identity for periods 1..T and exact cell characterisation in renumbered periods. Violated in general: labels above the number of periods yield no cell; any large enough shift removes all cells; consecutive periods starting later than 1+anticipation make every post-treatment base already treated."
 },
 "C98": {
  "note": "First difference and subset modelled on frames. Positive theorems for the varying base; violations are general statements about arbitrary frames."
 },
 "C99": {
  "note": "Spline basis abstract; lstsq = any solution of the normal equations; inverse = any matrix inverse."
 },
 "C100": {
  "note": "Infinitesimal-jackknife derivative over the reals with refitted regression; violation for every cell with a comparison unit and a nonzero influence."
 },
 "C101": {
  "note": "True derivative of the overall ATT versus the reported influence; violation for every comparison unit off the comparison mean."
 },
 "C102": {
  "note": "max_event_time left at its default (none)."
 },
 "C103": {
  "note": "Failed cells are those for which cont_did_acrt returns no extra results."
 },
 "C104": {
  "note": "True derivative proved; code's term equals treated share times it for arbitrary cohorts and weights."
 },
 "C105": {
  "note": "Regression branch of pte_attgt (taken whenever some dose exceeds 1); unit weights, intercept only."
 },
 "C106": {
  "note": "Order of polars unique() is a parameter."
 },
 "C107": {
  "note": "Random draw is an arbitrary list of ids."
 },
 "C108": {
  "note": "Cohort column over WithTop Int."
 },
 "C109": {
  "note": "Alignment for arbitrary lists of units; derivative of the curve over the reals. The mismatch of boundary knots between estimate and influence basis is not modelled."
 },
 "C110": {
  "note": "Fitting routines are oracles whose output depends on the weights only up to scale (true of the normal and score equations; normalEq_scale)."
 },
 "C111": {
  "note": "Positive part for untrimmed data; counterexamples with trimming for panel and repeated cross-sections."
 },
 "C112": {
  "note": "Concrete data with closed-form weighted least squares."
 },
 "C113": {
  "note": "Positive part when bootstrap weights average one and nothing is trimmed; counterexample otherwise."
 },
 "C114": {
  "note": "Regression as solution of the normal equations of the design built by the code."
 },
 "C115": {
  "note": "Estimators as modelled in DR.Model; counterexample for the analytic TWFE standard error."
 },
 "C116": {
  "note": "Influence function of the unit-level difference in weighted mean changes as specification."
 },
 "C117": {
  "note": "Index identity for lists of any length; concrete replicate that differs."
 },
 "C118": {
  "note": "Over the reals; convergence is a vanishing gradient; indices inside the clipping range of ±500."
 },
 "C119": {
  "note": "Minimiser among coefficients inside the clipping range (outside it the clipped value is not bounded below)."
 },
 "C120": {
  "note": "Positive parts for all weights (derivatives, minimiser) and for unit weights (balance); counterexamples with weights."
 },
 "C121": {
  "note": "Positive parts for any order of ties given by argsort; counterexamples for the share and for tied values."
 },
 "C122": {
  "note": "Pivot order of the QR decomposition is an argument; the counterexample holds for every admissible pivot order."
 },
 "C124": {
  "note": "Positive case proved; two violations proved (anticipation, coding of never-treated units)."
 },
 "C125": {
  "note": "Proved when no cell fails; otherwise refuted."
 },
 "C126": {
  "note": "Proved for panels; refuted for repeated cross-sections between cells."
 },
 "C127": {
  "note": "Proved for Spark; refuted for Dask."
 },
 "C128": {
  "note": "Refuted in general; proved for the earliest base period."
 },
 "C130": {
  "note": "Proved for the not-yet-treated path and balanced panels; refuted for the pivot path."
 },
 "C131": {
  "note": "Positive parts proved; absolute cut-off refutes unit invariance."
 },
 "C133": {
  "note": "Characterised; one degenerate cell removes the value (refuted)."
 },
 "C134": {
  "note": "Proved for compute_agg_ddd; refuted for att_gt, aggte, ddd_mp."
 },
 "C135": {
  "note": "Proved; GMM cells of ddd_mp ignore the bootstrap (refuted)."
 },
 "C136": {
  "note": "Proved; anticipation window enters the test (refuted)."
 },
 "C137": {
  "note": "Proved for periods numbered from 1; refuted below."
 },
 "C138": {
  "note": "Proved; refuted when a cell is one cluster."
 },
 "C139": {
  "note": "Proved."
 },
 "C140": {
  "note": "Formula proved; single cluster, missing cluster and unit-level clusters refuted."
 },
 "C141": {
  "note": "Relation proved; equality with the reported standard errors refuted."
 },
 "C142": {
  "note": "Proved for non-negative normalisers; refuted otherwise."
 },
 "C143": {
  "note": "Proved without clusters and with all horizons; clusters, missing horizons, trends_lin refuted."
 },
 "C144": {
  "note": "Proved for effects; placebos and unidentified levels refuted."
 },
 "C145": {
  "note": "Origins proved; common shocks refuted."
 },
 "C146": {
  "note": "Refuted for every input; what is subtracted instead is proved."
 },
 "C147": {
  "note": "Proved; availability with a missing horizon refuted."
 },
 "C148": {
  "note": "ddd_panel: all methods; ddd_rc: reg and ipw; C148_rc_dr_violated settles the dr case, C148_rc_gap gives the exact distance"
 },
 "C149": {
  "note": "The worst-case claim is proved (sound, sharp for a non-negative weighted horizon, minimax); the code overstates the bias for a negative weighted horizon (C149_negative_violated, C149_reflection_violated). Solver contract: exact minimiser."
 },
 "C150": {
  "note": "Exact arithmetic; convex solver by contract."
 },
 "C152": {
  "note": "norm.cdf = Mathlib Gaussian distribution function; halfnorm.ppf and brentq by contract."
 },
 "C153": {
  "note": "Joint normality stated as normality of every linear combination."
 },
 "C154": {
  "note": "Proved; the reversed range is a violation (C154_reversed_violated)."
 },
 "C155": {
  "note": "Violated for NaN truncation points (C155_nan_violated)."
 },
 "C158": {
  "note": "The first-stage size is a hypothesis: lf_cv is simulated in the code."
 },
 "C160": {
  "note": "Violated as stated: C160_size_violated; the valid case d = 0 is C159."
 },
 "C161": {
  "note": "lf_cv as in C158; grid points exact (floating-point linspace not modelled)."
 },
 "C162": {
  "note": "Violated as stated: C162_*_violated."
 },
 "C163": {
  "note": "exactness for contiguous acceptance proved; the general claim is violated (C163_gap_violated)"
 },
 "C170": {
  "note": "violated: size 1-(1-alpha)^k; bound k*alpha proved"
 },
 "C171": {
  "note": "default grid claim violated (centred at zero); the rest proved"
 },
 "C172": {
  "note": "positives plus C172_gap_violated"
 },
 "C174": {
  "note": "positives plus C174_direction_violated"
 },
 "C175": {
  "note": "positives plus the three _violated theorems"
 },
 "C177": {
  "note": "C177_union plus the two _violated theorems"
 },
 "C178": {
  "note": "C178_cell/C178_ddd_panel/C178_fits/C178_codes plus two _violated theorems"
 },
 "C179": {
  "note": "C179_cell for dr and ipw; C179_reg_violated gives the exact gap for reg, C179_reg_stationary when it closes"
 },
 "C180": {
  "note": "positives: C180_prefix; the two _violated theorems show every such call raises"
 },
 "C181": {
  "note": "C181_spark/C181_dask/C181_never_spark plus _violated for Dask"
 },
 "C182": {
  "note": "C182_controls, C182_never; C182_infinity_violated"
 },
 "C183": {
  "note": "C183_multi; C183_extra_violated gives the exact factor"
 },
 "C184": {
  "note": "Positive part plus _violated theorems for switchers without controls."
 },
 "C185": {
  "note": "Equal without missing doses; violated with one."
 },
 "C186": {
  "note": "Equal with a control for every candidate; dilution factor otherwise."
 },
 "C187": {
  "note": "Distributed counts proved; single-machine count and trend strata shown to differ."
 },
 "C188": {
  "note": "Formula proved; difference with dropped units shown."
 },
 "C189": {
  "note": "Subset and colocated case proved; placement dependence shown."
 },
 "C190": {
  "note": "Exact rule proved; difference for unbalanced panels shown."
 },
 "C191": {
  "note": "Equal under stated conditions; two _violated gaps."
 },
 "C193": {
  "note": "Exact difference proved; standard errors shown to differ."
 },
 "C195": {
  "note": "settled: positives C195_shift, C195_recovers, C195_common_shock, C195_order; the two-direction part is refuted by C195_shock_violated"
 },
 "C196": {
  "note": "settled: refuted by C196_trends_violated, C196_weight_violated, C196_late_violated; C196_trends gives the exact value"
 },
 "C197": {
  "note": "settled: C197_agree, C197_infer, C197_infer_agree, C197_local_dose; the unconditional claim is refuted by C197_zero_dose_violated and C197_last_period_violated"
 },
 "C198": {
  "note": "settled: C198_any_order, C198_placement; independence of earlier runs refuted by C198_stale_violated"
 },
 "C199": {
  "note": "settled: refuted by C199_level_violated and C199_fixed_effect_violated; C199_agree_iff is the exact condition"
 },
 "C200": {
  "note": "positive part under feasibility of the smallest candidate; violations as theorems"
 },
 "C204": {
  "note": "violations as theorems"
 },
 "C208": {
  "note": "settled: exact characterisation and a violation"
 },
 "C209": {
  "note": "settled: violation for cluster, positives for the rest"
 },
 "C210": {
  "note": "settled: violation and the exact effect of the option"
 },
 "C211": {
  "note": "settled: exact characterisation and a violation"
 },
 "C212": {
  "note": "settled: positives and the alignment violation"
 },
 "C213": {
  "note": "settled: the exact factor and the violation"
 },
 "C214": {
  "note": "proved for both data types"
 },
 "C215": {
  "note": "settled: positives and the degenerate violation"
 },
 "C220": {
  "note": "general formulas proved for all four methods; the documented (3.4) is refuted for the default method"
 },
 "C221": {
  "note": "proved for drdid trad and ipwdid std_ipw, refuted for ordid"
 },
 "C222": {
  "note": "pre-period covariates proved irrelevant for all frames; adjustment for pre-treatment covariates refuted"
 },
 "C223": {
  "note": "Positive parts proved; the two violated clauses are theorems with concrete instances."
 },
 "C224": {
  "note": "C224_cell proves the positive part; C224_between_violated the exception"
 },
 "C225": {
  "note": "C225_labels proves the positive part; C225_labels_violated and C225_shares_violated the exception"
 },
 "C226": {
  "note": "C226_event_study and C226_overall (closed forms) are the positive part; three violated theorems"
 },
 "C228": {
  "note": "C228_event, C228_missing positive; four violated theorems"
 },
 "C229": {
  "note": "C229_quantile, C229_exact positive; C229_range_violated"
 },
 "C230": {
  "note": "C230_quantile positive; two violated theorems"
 },
 "C231": {
  "note": "Positive part proved; the documented [idname, v] specification, underscore collisions and aggte are settled by the _violated theorems."
 },
 "C232": {
  "note": "Exact LP solver with basic solutions and exact truncation search are hypotheses (ToolsOk) met by constructed exact solvers (Honest/ArpExist.lean, via a proof of Farkas lemma); regularity of the moments (RegularLp) and contiguity of acceptance as in C165-C169. For first differences the maximal pre-difference may not be only the first (C61)."
 },
 "C233": {
  "note": "Positive parts proved; the clause about standard errors of ATT(d) is refuted by C233_untreated_ignored_violated."
 },
 "C234": {
  "note": "Positive parts proved; the level of the uniform bands is refuted by C234_level_violated."
 },
 "C235": {
  "note": "Positive parts proved; the two violated clauses are refuted by C235_inherited_level_violated and C235_label_violated."
 },
 "C236": {
  "note": "Positive parts proved; the single-value clause is refuted by C236_original_violated."
 },
 "C237": {
  "note": "claimed tolerance settled by C237_tolerance_violated, the rest proved"
 },
 "C238": {
  "note": "coverage settled by C238_flci_coverage_violated"
 },
 "C242": {
  "note": "settled by C242_did_violated"
 },
 "C243": {
  "note": "proportions settled by C243_proportion_violated"
 },
 "C244": {
  "note": "num_groups and D settled by the _violated theorems"
 },
 "C245": {
  "note": "Violated part: numpy stores names cut at the width of the text array."
 },
 "C246": {
  "note": "Violated parts: unknown reference ignored; pair names ambiguous."
 },
 "C247": {
  "note": "proved for analytical standard errors; the bootstrap and boundary cases are settled as violated"
 },
 "C255": {
  "note": "effects and placebos proved; the sign of the normalised effect for decreases is settled by C255_slope_violated"
 },
 "C256": {
  "note": "drdid_rc proved; the two composition-sensitive estimators are settled by C256_composition_violated and proved under stable covariate means"
 },
 "C257": {
  "note": "est_method dr; reg and ipw depend on the composition of the subgroups over time (compare C256)"
 },
 "C258": {
  "note": "The solver is the inverse of the Gram matrix (any least-squares routine returns the same coefficients at full rank). Boundary: exact real arithmetic; the condition-number check (cond > 1e15) is not modelled, it can only raise an error."
 },
 "C259": {
  "note": "C259_limit and C259_coverage prove the claim for the standard error before the tolerance; C259_tolerance_violated proves the NaN replacement eventually applies in every such population"
 },
 "C260": {
  "note": "standard error before the NaN tolerance of C259; cells that are not estimated are absent from the table (dropna=True); exact real arithmetic"
 },
 "C261": {
  "note": "standard error before the NaN tolerance of C259; exact real arithmetic"
 },
 "C262": {
  "note": "est_method=reg, analytic standard errors; an intercept among the covariates is assumed (as the formula interface adds)."
 },
 "C263": {
  "note": "Horvitz-Thompson weighting for repeated cross-sections is not included (its score enters the estimate)."
 },
 "C264": {
  "note": "The logit on a constant is modelled by its exact solution, the treated share. Standard errors without the NaN tolerance of att_gt (C259)."
 },
 "C265": {
  "note": "The naming of the outcome-regression and doubly robust estimators is truthful (positive); the weighting line of ipwdid and the covariate count are violated and shown by _violated theorems."
 },
 "C266": {
  "note": "Truthful for the values and groups printed; the variable names, SE label and simultaneous-band label are violated and shown by _violated theorems; the overflow on an inf-coded never-treated group likewise."
 },
 "C267": {
  "note": "Horizon standard errors and intervals proved; average total effect, tests and printed description are violated and shown by _violated theorems."
 },
 "C268": {
  "note": "Reproducibility proved for att_gt, aggte, dose responses and event-study cells; the remaining parts are violated and shown by _violated theorems."
 },
 "C269": {
  "note": "scores of an intercept-only fit are the treated share; statistical large-sample statement about exact arithmetic"
 },
 "C270": {
  "note": "positive for distinct ids without allow_unbalanced_panel, exact characterisation with it, violation witnessed"
 },
 "C271": {
  "note": "exact factor, exact condition, universal-base error and clustered variance proved; violation witnessed"
 },
 "C272": {
  "note": "balanced case proved equal; for unbalanced panels proved that no estimate is ever returned"
 },
 "C273": {
  "note": "filled grid, option and balanced case proved; for late entrants proved that the clustered standard error ignores them"
 },
 "C274": {
  "note": "The statement carries violations: an empty never-treated group passes; panel=False counts rows. Settled by positive theorems for balanced panels and two _violated theorems."
 },
 "C275": {
  "note": "Composition is constant for event times 0..b; before treatment it changes (_violated)."
 },
 "C276": {
  "note": "positive parts proved; violated for always-treated cohorts and two-period designs outside t1<b<=t2"
 },
 "C277": {
  "note": "single-machine checks and documented values proved; violated on distributed frames"
 },
 "C278": {
  "note": "The logit on a constant returns the treated share (DR.intercept_logit); clipping at 1-1e-6 and trimming are modelled."
 },
 "C279": {
  "note": "Standard errors a GMM cell brings along are modelled for ddd, taken as absent for att_gt; generators are arbitrary functions of worker, row count and draw."
 },
 "C280": {
  "note": "The logit without covariates is modelled by its solution, the treated share of the comparison."
 },
 "C281": {
  "note": "cells of panel=False data with unique ids (the influence function has one entry per row); allow_unbalanced_panel is a separate case; the means of the arms need not be balanced over periods"
 },
 "C282": {
  "note": "as C281; the aggregation weights are the weights column named \"weights\" (or none): other names are ignored by aggte, see C38"
 },
 "C283": {
  "note": "Never-treated comparison (one control cohort). The not-yet-treated GMM combination is C78/C208 in samples only."
 },
 "C284": {
  "note": "Settled by C284_coverage_violated; limits and variance decomposition hold in general. Analytic standard errors without bootstrap; cells of the never-treated comparison."
 },
 "C285": {
  "note": "Cohort effects and the overall group effect of agg_ddd on the tables of C283."
 },
 "C286": {
  "note": "Overall event-study and calendar effects of agg_ddd on the tables of C283; C286_coverage_violated settles the violated part, the other theorems the rest."
 },
 "C287": {
  "note": "Event-time effects of agg_ddd on the tables of C283; C287_treated_violated settles the violated part, the other theorems the rest."
 }
}