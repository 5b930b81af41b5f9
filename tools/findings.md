## Disagreements between code and documentation found while modelling

Where a property id is given, the disagreement is proved as a `_violated` theorem about the model.

1. `make_balanced_panel` counts rows, not distinct periods (C02); `is_balanced_panel` ignores duplicates.
2. `diagnose_panel`: the documented meaning of the duplicate count differs from the computed one (C08).
3. `get_group` treats a first-treatment period of 0 as never treated (C09).
4. The early-treatment filter can remove the first period (C16); a universal base period is then `None` (TypeError).
5. `wide_to_panel` stubs that are prefixes of one another are ambiguous (C11).
6. In-cell recomputation of DDD subgroups differs from the preprocessing table for eligibility codes other than 0/1 (C12).
7. att_gt aggregation looks the sampling weights up under the literal name `weights` (C38).
8. `max_e` of simple/group aggregation counts recoded periods, not calendar units (C34; same in DDD).
9. `balance_e` does not keep the composition constant with gaps in the calendar (C35).
10. Cohorts without post-treatment cells enter the overall group effect as 0 (C37; DDD C54); simple aggregation without post cells returns 0 (C76).
11. With a universal base, cells that fail are reported as ATT = 0 (C71).
12. `parallel_map`: which exception is raised depends on the schedule.
13. RC doubly robust influence functions have a pre-period sign error; the improved RC estimators omit the regression error, and Horvitz–Thompson RC influence values are off by (w-1)·ATT with unequal weights (C72).
14. `reg_did_panel` returns 0 in a degenerate case where the others refuse (C74).
15. Compiled cluster sums misplace negative integer ids (C41); cluster bootstrap averages cluster *means* (C77).
16. Distributed IRLS/WLS with only empty partitions raises TypeError (dask); distributed propensity scores are clipped at 1e-10, local ones at 1e-6 (C46).
17. `ddd_mp` influence columns are indexed by attempt, not by estimate (C51); GMM standard errors are too small (C78); aggregation omits the share influence (C79); `ddd()` with more than two periods ignores weights (C80); `agg_ddd` bootstrap ignores clusters; `ddd()` with two periods ignores `cluster`.
18. `did_multiplegt`: effect not signed for decreasing switchers (C58); shifts count rows, not calendar periods (C57); a missing treatment hides a switch (C55); never-switchers required in each period (C81); `same_switchers` masks (C82); signed normaliser with crossing (C83); F_g = 0 confused with never (C84); ATE denominator (C86); bootstrap duplicates unit ids (C87); linear trends not cumulated if a horizon is NaN (C88); placebo availability (C59).
19. Honest DiD: rm search misses the first pre-period difference, rmb/rmm use the first post difference (C62, C63); identified set reported as a point when the restriction is infeasible (C63); compiled helpers disagree (C64); the bound on M uses signed differences and omits the reference period (C89).
20. Spline objects return stale knot sequences after some histories (C66), construction from df without data inside the boundary (C67), wrong column count when extended (C90).
21. Sieve bases: `basis_dimension` differs from the matrix for glp (C68) and from the compiled version (C91); the band uses one more segment than the estimator, the Lepski step lacks the constant (C92); additive derivatives keep the levels of other variables (C93); extrapolation divides every Taylor term by the same factorial (C94); `x_min=0` is ignored; the `tensor_prod` fallback has a different arity.
22. Validation: NaN/text weights pass; a missing id/cohort/period column raises ColumnNotFound instead of a report; two-period and ddd entry points accept duplicate rows; did_multiplegt counts a missing treatment as a change (C69). Two-period ddd misaligns pre and post rows with misdated rows (C96); the minimum subgroup size check skips empty subgroups (C97).
23. cont_did: only the period column is renumbered (C70); with a universal base treated units serve as comparisons (C98); ACRT influence too small by treated/cell units (C100); the overall ATT uses the ACRT influence (C101); failed cells dilute the overall effect (C103); the weight influence is multiplied by the treated share (C104); the event-study level is dose weighted (C105); influence placement relies on `unique()` order (C106); `setup_pte` drops the first cohort (C108); the curve influence misaligns units with zero influence (C109).
24. Two-period bootstrap: traditional DR replicates use odds-weighted outcome regressions while the estimator uses plain ones, so unit draws do not reproduce the estimate (C112); improved replicates trim differently (C111); Horvitz–Thompson RC replicates are not renormalised (C113); the TWFE weighted bootstrap gives the two rows of a unit the draws of different units (C117); the analytic TWFE standard error changes when a unit constant is added (C115).
25. Calibrated scores: the fallback objective ignores sampling weights in its linear term (C120); the weighted quantile is not a quantile and depends on the order of tied rows (C121); quantile constraints use indices of the pivoted columns after collinear columns are dropped (C122).
26. Distributed att_gt: anticipation ignored in the choice of comparisons and `inf`-coded never-treated units dropped (C124); a failed cell shifts the columns of later cells (C125); cross-section influence values are stored by position (C126); an empty first Dask partition drops the cell (C127); covariates of the wrong period (C128); inner joins over all periods of a cohort (C130).
27. Bootstrap reporting: absolute tolerance blanks standard errors in small units (C131); one cell with equal quartiles removes the simultaneous critical value of all (C133); bands may be narrower than pointwise intervals (C134); GMM cells of the multi-period triple difference ignore bootstrap and clusters (C135); the Wald pre-test includes the anticipation window (C136).
28. did_multiplegt inference: the variance drops rows by absolute period number, so periods numbered 0 or lower give wrong or zero standard errors (C137); switchers count as one more cluster of the controls (C140); the joint tests use another, unclustered variance (C141); negative normalised standard errors (C142); the average total effect ignores clusters, and trends_lin reports it although it says not (C143); placebos are adjusted with the covariate change of the effect (C144); covariate regressions have no period effects (C145); the first-stage term is a constant (C146).
29. C148: `ddd_rc` with `est_method="dr"` reports influence values (hence standard errors) that are not those of its estimate: `nuisance_rc.py:593-604` adds the pre-period regression correction where the derivative subtracts it (same sign slip as `drdid_rc`).
30. Fixed-length intervals: for post-treatment weights with sum_k k*l_k < 0 (differences such as (1,-1)) the bias bound is too large by 2M|sum_k k*l_k| and the interval is not the mirror image of that for the negated weights (C149); if the numerical minimal standard deviation exceeds the one of get_min_bias_h (equal with one pre-period), the search loop cannot end (C154).
31. `test_in_identified_set` (`arp_no_nuisance.py:335-352`) compares the moment `A_B y - d_B` with truncation points and a critical value of `A_B y`. With `d > 0` (smoothness restrictions) this over-rejects: at least 67% instead of `alpha` in C160. The conditional test of `conditional.py` and the LF hybrid, which do not have the early `max_moment < v_lo` exit, keep their level. With one post-period: `compute_conditional_cs_rm` always raises (`accept_grid[:, 0]` of a one-dimensional array, `rm.py:725`); the default FLCI hybrid of `sd`/`sdb` always raises (weights sliced to the post-period, `sd.py:429`, `sdb.py:456`); `sdb` with LF and `sdrm`/`sdrmm`/`sdrmb` with FLCI do not pass the arguments the test needs; the default LF/ARP grid of `sd` is centred at 0 instead of the estimate (`sd.py:447-459`).
32. lp_conditional_test(x_t=None) compares a maximum of several moments with the quantile of a single normal (C170); the default grid of compute_arp_nuisance_ci is centred at zero, effects beyond 20 standard errors are never covered (C171); its binary search misreports non-contiguous acceptance regions (C163).
33. Sensitivity tables (C172, C174, C175, C177): `honest_did` accepts a gap next to the reference period; `monotonicity_direction="Increasing"` with FLCI is silently ignored and labelled `DeltaSDD`; `create_sensitivity_results_sm` without `m_vec` raises for exactly two pre-periods and yields negative M for concave pre-trends; `create_sensitivity_results_rm` ignores a single grid limit; the default grids of `compute_conditional_cs_sd` (centred at 0) and of the linear-trend table (built under parallel trends) need not contain the effect.
34. Distributed triple differences: on repeated cross-sections `reg` computes a different estimator from the single-machine code (C179_reg_violated); with `ipw` a fully trimmed comparison is reported as the treated units' own change instead of an error (C178_trimmed_violated).
35. Distributed ddd: not-yet-treated controls on repeated cross-sections always raise in the usual designs (C180); on Dask a comparison cohort is dropped or the call fails depending on the placement of rows (C181); never-treated units coded as infinity are not compared (C182); units of a cell in no comparison inflate the standard error (C183).
36. Distributed did_multiplegt: switchers without a control dilute the effect instead of being dropped (C184), a missing dose makes normalised effects missing (C185), the baseline filters run per worker so the kept rows depend on hashing (C189), and horizons are limited by each worker's own last period (C190).
37. Distributed did_multiplegt with covariates: no minimum number of rows for the regression, units counted after dropping missing covariates (C191), and the covariate part of the influence values goes to switchers only (C193).
38. predict_het: date and direction dummies are not interacted, so a common shock is attributed to covariates when switchers go both ways (C195); with trends_lin the outcome is differenced twice, so constant effects vanish after horizon 1, and first-row weights can silence a unit (C196).
39. Distributed cont_did: zero-dose cohort members become comparison units (C197); Dask task names contain only cohort and period, so results of another data set can be returned (C198); event studies compare outcome levels instead of changes because d_outcome is not passed to workers (C199).
40. C200/C202/C204/C206/C207: data-driven NPIV: full grid for weak instruments, failed pair selects the smallest sieve with infinite band, default band covers 94 of 99 draws, zero bounds ignored, wrong variance in the regression case
41. ddd(): cluster is ignored on two-period data (documented as supported only there), allow_unbalanced_panel=False never raises, coding never-treated units as infinity changes the estimator with two periods and two cohorts, no check that the treated cohort is treated between the two periods (C208-C211).
42. `drdid(panel=False)` with the default `est_method="imp"` runs the not locally efficient estimator (3.3), although the Notes say (3.4) (C220); `ordid` reports ATT 0 if no treated unit is observed in both periods (C221); two-period panels adjust for the covariates of the post-treatment row (C222).
43. C223: identified sets under RM restrictions drop the first pre-period difference (range starts at -(p-2)), SDRM variants always include the point estimate
44. C224-C230 (pte_default): unit merged into another cohort when its treatment date is unobserved (C224); labels not translated back for periods 2..T (C225); overall effect depends on boot_type (C226); overall SE has divisor B, slope SEs are 0 and first cohort never estimated in replicates (C228); quantile grids truncate (C229, C230).
45. att_gt clustervars=[idname, v]: every unit becomes its own cluster so v is ignored; aggte never clusters (C231).
46. `cont_did(dose_est_method="cck")`: standard errors and bands of ATT(d) ignore the sampling error of the untreated mean (C233); with `cband=True` the bands are always 95% (npiv is called without alpha, C234). `aggte` without `alp` after `att_gt(alp=a)` prints 95% over intervals with level 1-a, and the overall interval is 95%; simultaneous bands without bootstrap standard errors are labelled pointwise (C235). Sensitivity plots with one parameter value put the original interval at 0 (C236).
47. C238: FLCI hybrid of compute_conditional_cs_sdrm passes m_bar (relative) as absolute smoothness bound; coverage not controlled (sdrm.py:481-499).
48. C242: gen_did_scalable violates parallel trends (index_pt_violation is kept in a two-way design), so att_config is not what any DiD estimator recovers. C243: prob_g2_p1/prob_g3_p1 are not proportions. C244: num_groups other than num_time_periods raises; D is positive before treatment.
49. bin_factor with a dict on text cuts new names at the width of the longest value, merging bins whose names share a prefix (didhonest/utils.py:405-421); create_interactions silently ignores a reference level that does not occur (utils.py:221-226).
50. C247: with bootstrap standard errors the printed two-period and triple-difference stars use the bootstrap critical value while the p-value uses the normal distribution, so they can contradict each other; a bootstrap without a positive standard error returns the interval (att, att), so every nonzero estimate is starred while no p-value is printed.
51. With repeated cross-sections, `reg_did_rc` and `drdid_trad_rc` need the treated to have the same covariate means in both periods even when the outcome models are correct; otherwise they report an effect where there is none (C256). `drdid_rc` does not.
52. C259: att_gt and aggte replace every standard error not above sqrt(eps)*10 (about 1.5e-7) by NaN (att_gt.py:394, compute_aggte.py:896): an absolute tolerance, so inference depends on the unit of measurement of the outcome and vanishes for large enough samples.
53. C265/C266: ipwdid always stores normalized=True, so its default Horvitz-Thompson estimator is printed as Hajek-type (drdid/ipwdid.py:298, drdid/format.py:169-171); the printed covariate count is the number of columns minus four; two-period ddd prints y/partition as variable names, multi-period ddd prints Analytical standard errors regardless of bootstrap, agg_ddd labels the pointwise fallback Simult., and a multi-period ddd result with inf-coded never-treated units cannot be printed (didtriple/format.py:186-192).
54. C267: did_multiplegt(boot=True) computes bootstrap replicates of the average total effect but never uses them; the average effect, the equality test and the joint placebo test stay analytical, and the summary prints "Standard errors: Analytical"; covariates are looked up under a key that does not exist and never printed (didinter/compute_did_multiplegt.py:96-112, didinter/format.py:108-122).
55. C268: cont_did(aggregation="eventstudy", random_state=k) is not reproducible: aggregate_att_gt calls the bootstrap without a seed (process_aggte.py:116, 131, 241-277, 461), and so is the overall standard error of dose_est_method="cck"; att_gt with clustervars=[idname, v] numbers clusters in the arbitrary order of unique() (att_gt.py:421-424).
56. att_gt outside balanced panels: with allow_unbalanced_panel=True and panel=False influence values are ordered by id but cohorts and clusters by (period, cohort, id), so aggregate and clustered standard errors use mismatched units; with panel=False and recurring ids the reported standard errors are inflated by n/id_count; with panel=True and allow_unbalanced_panel=True a truly unbalanced panel always raises TypeError (no outcome tensor).
57. did_multiplegt with cluster on a panel with late entrants: the balancing step does not carry the cluster to added rows and the standard error reads it from the first-period row, so units entering after the first period are silently left out of the clustered standard error (C273).
58. att_gt(control_group="nevertreated") accepts data whose never-treated units were all dropped by the panel balancer (C274).
59. Distributed att_gt accepts any base_period string; every value other than "varying"/"universal" makes each cell use its own period as base, so all estimates are 0 (C277). Distributed ddd shifts influence columns by one cohort when an always-treated cohort is present (C276).
60. The distributed `ddd` (Dask and Spark) accepts `cluster`, stores it in the result and never uses it: standard errors and bands are those for independent units (C279). The distributed `att_gt` replaces a missing simultaneous critical value by the pointwise normal quantile, the single-machine one reports NaN.
61. C284: agg_ddd (compute_agg_ddd.py:211-234, 341-347, 440-446) omits the estimated cohort shares from the influence functions of its simple, event-time and calendar effects; their pointwise intervals cover less than 1-alpha in large samples whenever the effects differ between the cohorts.
