# Formal model of moderndid in Lean 4 — design

The repository (`/repo`, python) is read as text and never run. The model is a set of total Lean
functions that mirror the Python functions branch by branch; every definition cites file and lines.
Properties are in `properties.jsonl`, their status in `MANIFEST.json`. This file is generated by
`tools/design.py` from `tools/design_head.md`, `tools/findings.md` and the manifest.

## Trusted base

* Lean 4.33.0 kernel; the axioms `propext`, `Classical.choice`, `Quot.sound` only. No own axioms,
  no compiled-evaluation tactics.
* My reading of the Python source, and the documented behaviour of the libraries it calls
  (polars `unique/group_by/filter/join/sort/n_unique/over/shift`, numpy indexing, `concurrent.futures`,
  `contextvars`). These are modelled by the list/function operations named in the model comments.
* **Arithmetic is exact** (a linear ordered field, `ℚ` or `ℝ`), not IEEE-754. Rounding, overflow, NaN
  propagation and `inf` arithmetic are outside the model except where an explicit `Option`/`WithTop`
  value models NaN/None/inf.
* Linear solves, inverses, linear programs, GLM fits are parameters characterised by the equations they
  solve (normal equations, score equations, feasibility + optimality); their numerical failure modes
  are not modelled.
* Random number generators are not modelled: a bootstrap statement is about given draws, or about the
  exact two-point law.

## How statements are made

* `Verif/<Area>/Model.lean` – definitions with citations; `Spec.lean` – small independent specifications;
  `Lemmas.lean` – helper lemmas; other files – property theorems, each followed by a non-vacuity `example`
  on a concrete, non-trivial instance of its hypotheses.
* Theorem `Cnn_...` belongs to property `Cnn`. `Cnn_..._violated` is a proved negation for the unchanged
  code: either for every input of a class, or with a concrete witness. A property whose English statement
  contains "(Violated …)" is settled by a pair of theorems: what holds, and what fails.
  `_partial` marks a theorem that proves only part of its property; what is missing is in the manifest note.
* Universally quantified statements are proved by induction, invariants, algebra or calculus. Concrete
  evaluation (`decide +kernel`) occurs only in non-vacuity examples and in counterexamples.

## Testing the theorems against wrong programs

`tools/mutate.py` applies one edit to the model (a wrong boundary, a swapped argument, a dropped update, …)
in a scratch copy, rebuilds, and records in `seeded/LOG.jsonl` which theorems stop proving; the edits are
`seeded/mutants*.json`. A theorem counts as failing only if its own proof breaks, not if it merely
depends on a broken file. An edit that falsifies an English claim but breaks no theorem led to a new or
stronger theorem (`theorems_tightened` in the log), after which the edit was run again.

## What is modelled, area by area

| area (`lean/Verif/…`) | code | not modelled |
|---|---|---|
| Panel | `core/panel.py`, `core/preprocess/utils.py`: balancing, gaps, duplicates, wide/long, groups, first differences, subgroups | dtype conversion, plotting helpers, messages |
| Prep | `core/preprocess/{transformers,builders,tensors,models}.py`, did pipeline, tensors, cohort tables | formula parsing; design matrices as given columns |
| AttGt | `did/{att_gt,compute_att_gt}.py`: cells, base periods, comparison sets, influence matrix, parallel map | string labels, warnings |
| DR | `drdid/estimators/*.py`: eight estimators (panel/RC; DR, improved, traditional, IPW, REG) and their influence functions | fitting algorithms (equations assumed), sandwich numerics |
| DR (Refit, Twfe) | `drdid/bootstrap/*.py` weighted and multiplier bootstrap replicates, `drdid/estimators/twfe_did_{panel,rc}.py` | random draws (arbitrary vectors) |
| DR (Tilt, Quant) | `drdid/propensity/pscore_ipt.py` objectives, balance, weighted quantile, quantile constraints | optimisers, QR decomposition |
| Agg | `did/{aggte,compute_aggte}.py` | printing, critical values (see Boot) |
| Boot | `did/mboot.py`, compiled cluster sums, quantile-based standard errors and critical values | random generator |
| Dist | `distributed/_{gram,did_partition,regression,utils}.py`, dask/spark drivers as reduction trees; `dask/_did_mp.py` cell enumeration, unit selection, storage of influence values | schedulers, serialisation, GPU |
| Triple | `didtriple/estimators/{ddd_panel,ddd_rc,ddd_mp}.py`, `compute_agg_ddd.py`, `ddd.py` | ddd_mp_rc, bootstrap |
| Inter | `didinter/*.py`: switch detection, horizons, placebos, options, normalisation, ATE, bootstrap sample, influence values and standard errors, clusters, covariates (`controls.py`), equality test | `_compute_heterogeneity`, p-values, `variance_ehat.py` (unused) |
| Honest | `didhonest/delta/*`, `numba.py`, bounds, identified sets (sd, sdb, sdm, rm, sdrm) | FLCI/ARP confidence sets, LP solver |
| Infra | `cupy/backend.py`, `core/parallel.py` | cupy itself |
| Spline | `didcont/spline/*.py` objects as state machines | B-spline values (scipy) |
| Npiv | `didcont/npiv/{prodspline,gsl_bspline,…}.py`, `didcont/utils.py`, `didcont/numba.py`: columns, dimensions, derivative masks, extrapolation rule | TSLS fits, critical values |
| Valid | `core/preprocess/validators.py`, two-period and ddd builders | text of messages |
| Cont | `didcont/cont_did.py`, `didcont/estimation/{process_panel,process_dose,process_aggte,bootstrap}.py`, ContDID pipeline | CCK estimator, knots of the dose basis |


## Plan per property (how modelled, how proved, where)

| id | property | modelled and proved by | theorems in | status |
|---|---|---|---|---|
| C01 | make_balanced_panel keeps exactly the fully observed units | panels are lists of rows; balancing and completion as filters on unit counts; list induction | Panel/Props | proved |
| C02 | make_balanced_panel is idempotent and its output is balanced | panels are lists of rows; balancing and completion as filters on unit counts; list induction | Panel/Props | proved: proved for duplicate-free panels; both claims shown to fail with duplicate rows (…_violated) |
| C03 | complete_data and make_balanced_panel agree; threshold is monotone | panels are lists of rows; balancing and completion as filters on unit counts; list induction | Panel/Props | proved |
| C04 | is_balanced_panel, has_gaps and scan_gaps tell the same story | predicates over the product of units and periods; counting over deduplicated lists | Panel/Props | proved |
| C05 | fill_panel_gaps produces the full unit x period grid and loses nothing | predicates over the product of units and periods; counting over deduplicated lists | Panel/Props | proved |
| C06 | scan_gaps lists exactly the missing pairs and agrees with diagnose_panel | predicates over the product of units and periods; counting over deduplicated lists | Panel/Props | proved |
| C07 | deduplicate_panel leaves one row per pair, chosen as documented | deduplication and diagnosis as list functions; induction | Panel/Props | proved |
| C08 | diagnose_panel counts are consistent | deduplication and diagnosis as list functions; induction | Panel/Props, Panel/Props2 | proved: consistency proved; the documented meaning of the duplicate count is refuted (…_violated) |
| C09 | get_group returns the first treated period | per-unit lists; induction | Panel/Props2 | proved |
| C10 | get_first_difference telescopes and marks exactly the first row of each unit missing | per-unit lists; induction | Panel/Props2 | proved |
| C11 | panel_to_wide followed by wide_to_panel restores the panel | wide/long conversion as lookups; prefix counterexample | Panel/Reshape | proved |
| C12 | DDD subgroups partition the units | subgroup codes; case analysis | Panel/Props | proved: table proved; agreement with the in-cell recomputation proved for a 0/1 eligibility column and refuted otherwise |
| C13 | Treatment-time encoding is canonical | transformers as list functions over rows with cohorts in WithTop; induction, permutation lemmas | Prep/Props | proved |
| C14 | Weights are normalised to mean one and scale does not matter | transformers as list functions over rows with cohorts in WithTop; induction, permutation lemmas | Prep/Props | proved |
| C15 | Early-treated units are removed completely | transformers as list functions over rows with cohorts in WithTop; induction, permutation lemmas | Prep/Props | proved |
| C16 | Every remaining treated cohort has a usable base period | transformers as list functions over rows with cohorts in WithTop; induction, permutation lemmas | Prep/Props | proved |
| C17 | A comparison group always exists after preprocessing | transformers as list functions over rows with cohorts in WithTop; induction, permutation lemmas | Prep/Props | proved |
| C18 | Outcome arrays are aligned by unit | sort and slice into tensors; sorted permutations of a product | Prep/Tensor | proved |
| C19 | Treated and control units of a cell are exactly the documented ones | cohort table with cumulative offsets; list slices, sort-key lemmas | Prep/Cohort | proved |
| C20 | Preprocessing is insensitive to row order | cohort table with cumulative offsets; list slices, sort-key lemmas | Prep/Props | proved |
| C21 | Base period selection | att_gt loop and base periods; induction on the period list; futures as permutations of completions | AttGt/Props | proved |
| C22 | Every (g,t) cell is enumerated once, in order | att_gt loop and base periods; induction on the period list; futures as permutations of completions | AttGt/Props, AttGt/Props2 | proved |
| C23 | Results do not depend on thread scheduling | att_gt loop and base periods; induction on the period list; futures as permutations of completions | AttGt/Parallel | proved |
| C24 | Influence functions are rescaled consistently | att_gt loop and base periods; induction on the period list; futures as permutations of completions | AttGt/Props2 | proved |
| C25 | Without covariates DR, IPW and outcome regression all equal the 2x2 DiD of weighted means | weighted-sum formulas; nuisance fits as hypotheses (normal/score equations); algebra | DR/Props | proved |
| C26 | The ATT is invariant to the scale of weights and to unit-level outcome levels | weighted-sum formulas; nuisance fits as hypotheses (normal/score equations); algebra | DR/Props | proved |
| C27 | Influence functions average to zero | weighted-sum formulas; nuisance fits as hypotheses (normal/score equations); algebra | DR/MeanZero | proved |
| C28 | Double robustness of the point estimate | weighted-sum formulas; nuisance fits as hypotheses (normal/score equations); algebra | DR/Props | proved |
| C29 | Without covariates repeated cross-section estimators equal the four-mean DiD | weighted-sum formulas; nuisance fits as hypotheses (normal/score equations); algebra | DR/RC | proved |
| C30 | Trimming never affects treated units and only removes controls | weighted-sum formulas; nuisance fits as hypotheses (normal/score equations); algebra | DR/Props | proved |
| C31 | Aggregation weights are a probability distribution | selection of cells, cohort-share weights, recoding as order isomorphism, weight influence; finite sums | Agg/Props2 | proved |
| C32 | Aggregations combine exactly the right cells | selection of cells, cohort-share weights, recoding as order isomorphism, weight influence; finite sums | Agg/Props | proved |
| C33 | Time recoding is an order isomorphism | selection of cells, cohort-share weights, recoding as order isomorphism, weight influence; finite sums | Agg/Props | proved |
| C34 | max_e means the same number of periods for all aggregations | selection of cells, cohort-share weights, recoding as order isomorphism, weight influence; finite sums | Agg/Props | proved: dynamic aggregation proved; exact rule of simple/group aggregation proved, the documented one proved for consecutive periods and refuted otherwise (…_violated) |
| C35 | balance_e keeps the composition constant | selection of cells, cohort-share weights, recoding as order isomorphism, weight influence; finite sums | Agg/Props3 | proved: proved for gap-free cells; refuted with gaps in the calendar (…_violated) |
| C36 | Weight influence functions vanish on constant effects and average to zero | selection of cells, cohort-share weights, recoding as order isomorphism, weight influence; finite sums | Agg/Props3 | proved |
| C37 | Overall group effect equals the simple combination of group effects by cohort share | selection of cells, cohort-share weights, recoding as order isomorphism, weight influence; finite sums | Agg/Props2, Agg/Props3 | proved: proved; for cohorts without post-treatment estimates the group claim is refuted (…_violated) |
| C38 | Sampling weights reach the aggregation step | selection of cells, cohort-share weights, recoding as order isomorphism, weight influence; finite sums | Agg/Weights | proved: proved for a weight column called 'weights'; refuted for every other name (…_violated) |
| C39 | Mammen multipliers have the first three moments of the theory | two-point law, bootstrap draws, cluster sums, quantiles; algebra, finite sums | Boot/Props | proved |
| C40 | Bootstrap draws are linear in the influence function and batching does not change them | two-point law, bootstrap draws, cluster sums, quantiles; algebra, finite sums | Boot/Props | proved |
| C41 | Cluster aggregation is a partition sum and both implementations agree | two-point law, bootstrap draws, cluster sums, quantiles; algebra, finite sums | Boot/Cluster | proved: proved for non-negative integer labels and for all ranked (non-integer) labels; agreement refuted for negative integer labels (…_violated) |
| C42 | Standard errors scale with the influence function and never go negative | two-point law, bootstrap draws, cluster sums, quantiles; algebra, finite sums | Boot/Props | proved |
| C43 | Blocked Gram equals plain Gram | Gram matrices over row lists, blocks, reduction trees, IRLS as iterated map; list and permutation sums | Dist/Gram | proved |
| C44 | Partitioning does not change distributed results | Gram matrices over row lists, blocks, reduction trees, IRLS as iterated map; list and permutation sums | Dist/Reduce | proved |
| C45 | Distributed IRLS follows the same iterates as the single-machine fit | Gram matrices over row lists, blocks, reduction trees, IRLS as iterated map; list and permutation sums | Dist/Reduce | proved |
| C46 | Distributed DiD cell estimates equal the local formula | Gram matrices over row lists, blocks, reduction trees, IRLS as iterated map; list and permutation sums | Dist/Cell, Dist/CellRC | proved |
| C47 | chunked_vcov equals the one-shot matrix and is positive semidefinite | Gram matrices over row lists, blocks, reduction trees, IRLS as iterated map; list and permutation sums | Dist/Gram | proved |
| C48 | auto_tune_partitions respects its bounds | Gram matrices over row lists, blocks, reduction trees, IRLS as iterated map; list and permutation sums | Dist/Gram | proved |
| C49 | Triple-difference combines three DiDs | estimators as three comparisons; algebra and calculus of influence functions | Triple/Props, Triple/RC | proved |
| C50 | The DDD influence function is the matching combination and averages to zero | estimators as three comparisons; algebra and calculus of influence functions | Triple/Influence, Triple/RC | proved |
| C51 | DDD multi-period estimates, labels and influence columns stay aligned | cell loop, comparison sets, GMM weights, aggregation; induction, Cauchy-Schwarz | Triple/AggLabels, Triple/MultiProps | proved: proved when no skipped cell precedes an estimated one, and labels proved always; refuted for every data set with an always-treated cohort (…_violated) |
| C52 | GMM combination weights sum to one and minimise variance | cell loop, comparison sets, GMM weights, aggregation; induction, Cauchy-Schwarz | Triple/Gmm, Triple/Scale | proved |
| C53 | DDD cells never use already-treated or not-yet-listed controls | cell loop, comparison sets, GMM weights, aggregation; induction, Cauchy-Schwarz | Triple/Cells, Triple/Scale | proved |
| C54 | DDD aggregation averages only estimated cohorts | cell loop, comparison sets, GMM weights, aggregation; induction, Cauchy-Schwarz | Triple/AggLabels, Triple/AggProps | proved: every aggregate characterised; the overall group effect is proved a weighted average with dropna=True or when all cohorts have post-treatment cells, refuted otherwise (…_violated) |
| C55 | Switch timing is read off the treatment path | treatment paths as lists; induction over the path | Inter/PathProps | proved: proved for every path without missing treatments; a missing treatment hides a switch (…_violated) |
| C56 | Bidirectional switchers lose exactly the rows after they have been on both sides | treatment paths as lists; induction over the path | Inter/PathProps | proved |
| C57 | Horizon effects are averages of the documented group-level DiDs | horizon effects as finite sums over a frame; rearrangement of sums | Inter/HorizonEx, Inter/HorizonProps | proved: proved for every frame (weights, missing outcomes, options) and in documented form for balanced panels over consecutive periods; refuted when the observed periods have a gap (…_violated) |
| C58 | Out-switchers enter with a negative sign | horizon effects as finite sums over a frame; rearrangement of sums | Inter/HorizonProps | proved: refuted: reported = documented + 2x contribution of decreasing units; equal when all increase, minus the documented one when all decrease |
| C59 | Requested horizons are clamped to what the data support | horizon effects as finite sums over a frame; rearrangement of sums | Inter/Options | proved: exact characterisation of the horizons used; for placebos the bound admits horizons without estimate (…_violated) |
| C60 | Smoothness constraint matrices encode bounded second differences | constraint rows as functions of the trend; identified sets as images of polyhedra; linear algebra | Honest/Props | proved |
| C61 | Monotonicity and sign restrictions are encoded correctly | constraint rows as functions of the trend; identified sets as images of polyhedra; linear algebra | Honest/Props | proved |
| C62 | Relative-magnitude constraint matrices encode the documented set | constraint rows as functions of the trend; identified sets as images of polyhedra; linear algebra | Honest/Relative | proved: matrices proved exact for every reference difference before the treatment; the search of rm misses the first difference and that of rmb/rmm uses a post-treatment one (…_violated); sdrm search proved exact |
| C63 | Identified sets contain the truth and are nested in the bound | constraint rows as functions of the trend; identified sets as images of polyhedra; linear algebra | Honest/Identified, Honest/IdentifiedEx, Honest/IdentifiedRM | proved: sd, sdb, sdm: reported interval proved equal to the identified set; sdrm: containment and nesting proved; rm: containment proved when the largest difference is not the first, refuted otherwise; infeasible restrictions refuted (…_violated) |
| C64 | Compiled and interpreted helpers agree | constraint rows as functions of the trend; identified sets as images of polyhedra; linear algebra | Honest/Compiled | proved: agreement proved for all constructors and helpers; refuted for compute_bounds below the threshold and clip_values with lower > upper (…_violated) |
| C65 | use_backend restores the previous backend on every exit path | programs of nested context managers with an interpreter; structural induction | Infra/Backend | proved |
| C66 | Spline objects never serve stale knots | spline object as a state machine; invariants over every history of calls | Spline/Df, Spline/Props | proved: proved for every history without an extended knot sequence and without rejected boundary/sequence calls; each exception exhibited (…_violated) |
| C67 | Knot sequences have the right length and multiplicity | spline object as a state machine; invariants over every history of calls | Spline/Df, Spline/Props | proved: proved for every such history and for construction from df with data inside the boundary; refuted without data inside (…_violated) |
| C68 | Basis dimension formulas | column counts of products of bases; induction over the list of regressors | Npiv/Dim | proved: additive and tensor proved for all lists; glp: closed form proved (C68_glp_formula), equality proved for one active regressor, refuted for >= 2 (…_violated) |
| C69 | Validation accepts exactly the well-formed inputs | validators as functions to lists of errors; exact acceptance conditions | Valid/Props | proved: exact acceptance conditions proved for all four pipelines; the four departures are …_violated |
| C70 | cont_did does not depend on how periods are numbered | ContDID pipeline as composition of list functions; exact cell characterisation | Cont/Frame, Cont/More | proved: Renumbering modelled with the whole ContDID pipeline. Positive: identity for periods 1..T and exact cell characterisation in renumbered periods. Violated in general: labels above the number of periods yield no cell; any large enough shift removes all cells; consecutive periods starting later than 1+anticipation make every post-treatment base already treated. |
| C71 | A cell that could not be estimated is not reported as a zero effect | att_gt assembly with failed cells; case analysis | AttGt/Props2 | proved |
| C72 | Influence values are derivatives of the estimate | derivative of the refitted estimator with respect to an observation weight (infinitesimal jackknife); calculus over the reals | DR/Jackknife, DR/JackknifeEx, DR/JackknifeMore, DR/JackknifeMoreEx, DR/JackknifeRC | proved: all twelve two-period estimators: seven hold outright and ipw_did_rc with equal weights; for the other cases the exact gap is proved and the claim refuted (…_violated); the improved estimators assume an intercept and no trimmed observation |
| C73 | att_gt without covariates is the documented difference of mean changes | influence and degenerate cases of the cell loop and estimators; algebra | AttGt/Capstone | proved |
| C74 | An estimate needs observations in both groups | influence and degenerate cases of the cell loop and estimators; algebra | DR/Degenerate | proved: proved for DR and IPW, refuted for reg_did_panel (…_violated) |
| C75 | Aggregate influence functions are derivatives of the aggregates | derivative of cohort shares; empty selections | Agg/Deriv | proved |
| C76 | An aggregate of no cells is not reported as a number | derivative of cohort shares; empty selections | Agg/Empty | proved: proved for group, dynamic, calendar; refuted for simple (…_violated) |
| C77 | Bootstrap variance matches the analytical one | cluster means versus sums; variance algebra | Boot/Props | proved: proved without clusters and for equal cluster sizes; refuted for unequal sizes (…_violated) |
| C78 | A DDD cell's standard error is the one implied by its influence function | GMM variance, aggregation influence, entry point; derivatives and counterexamples | Triple/Gmm | proved: exact ratio proved; claim refuted (…_violated) |
| C79 | Aggregate DDD influence functions account for the estimated cohort shares | GMM variance, aggregation influence, entry point; derivatives and counterexamples | Triple/AggDeriv | proved: proved for the overall group effect; for simple, event-study and calendar the exact gap is proved and the claim refuted (…_violated) |
| C80 | Observation weights are used by ddd() | GMM variance, aggregation influence, entry point; derivatives and counterexamples | Triple/Cells, Triple/Scale | proved: refuted for more than two periods (…_violated) |
| C81 | Not-yet-switchers serve as controls | options of did_multiplegt as filters and masks on the frame; finite sums and concrete frames | Inter/Options | proved: refuted; exact condition for rows to survive proved |
| C82 | same_switchers uses the same units at every horizon | options of did_multiplegt as filters and masks on the frame; finite sums and concrete frames | Inter/Options | proved: effects with same_switchers alone proved; both flags / placebo flag refuted |
| C83 | Normalisation divides by the mean absolute cumulated treatment change | options of did_multiplegt as filters and masks on the frame; finite sums and concrete frames | Inter/Normalise | proved: proved under Design Restriction 2; refuted with crossing |
| C84 | The variation filter keeps every baseline with two switch dates | options of did_multiplegt as filters and masks on the frame; finite sums and concrete frames | Inter/Options | proved: proved when no unit switches in period 0; refuted otherwise |
| C86 | Average total effect is effect per unit of treatment | options of did_multiplegt as filters and masks on the frame; finite sums and concrete frames | Inter/Normalise | proved: proved for a common constant dose; refuted for changing doses |
| C87 | Bootstrap replicates treat every draw as a unit | options of did_multiplegt as filters and masks on the frame; finite sums and concrete frames | Inter/Normalise | proved: refuted, general and concrete |
| C88 | trends_lin removes unit-specific linear trends | options of did_multiplegt as filters and masks on the frame; finite sums and concrete frames | Inter/Normalise | proved: proved when every horizon has an estimate; refuted otherwise |
| C89 | The data-driven smoothness bound covers the observed pre-trend | bound on second differences; exact maximum characterisation | Honest/UpperM | proved: exact meaning of the reported bound proved; the documented use refuted in three ways (…_violated) |
| C90 | A spline basis has spline_df columns | column count of extended spline objects; algebra on lengths | Spline/Props | proved: proved for non-extended objects (C67_knot_sequence), refuted for every extended object of degree >= 1 (…_violated) |
| C91 | Compiled and interpreted basis dimensions agree | compiled dimension, sieves of the three procedures, derivative masks, extrapolation rule; induction and algebra | Npiv/Dim, Npiv/DimC | proved: proved for additive/tensor and glp with <= 2 regressors; refuted with three (…_violated) |
| C92 | Estimator, dimension selection and confidence band use the same sieve | compiled dimension, sieves of the three procedures, derivative masks, extrapolation rule; induction and algebra | Npiv/Dim | proved: refuted (…_violated) for the band; the exact column shortfall of the selection step is proved for all configurations |
| C93 | Derivative design matrix is the derivative of the design matrix | compiled dimension, sieves of the three procedures, derivative masks, extrapolation rule; induction and algebra | Npiv/Deriv | proved: proved for tensor and glp and for one additive regressor; refuted for additive with >= 2 (…_violated) |
| C94 | Evaluation outside the boundary knots continues the boundary polynomial | compiled dimension, sieves of the three procedures, derivative masks, extrapolation rule; induction and algebra | Npiv/Deriv | proved: exact rule proved; highest derivative correct; refuted for every degree >= 1 (…_violated) |
| C95 | Two-period estimators pair pre and post outcomes of the same unit | two-period builders as list functions; sorting and alignment lemmas | Valid/Two | proved |
| C96 | Two-period ddd pairs pre and post outcomes of the same unit | two-period builders as list functions; sorting and alignment lemmas | Valid/Two | proved: proved under uniqueness of (unit, period), refuted without (…_violated) |
| C97 | Minimum subgroup size in ddd | two-period builders as list functions; sorting and alignment lemmas | Valid/Two | proved: proved for subgroups that occur; refuted for empty ones (…_violated) |
| C98 | cont_did cells compare untreated units over the right change | two-by-two subset and first difference on sorted frames; list induction | Cont/Subset | proved: First difference and subset modelled on frames. Positive theorems for the varying base; violations are general statements about arbitrary frames. |
| C99 | cont_did cell estimates | regression with abstract basis; normal equations; derivative of the refitted cell estimate | Cont/Cell | proved: Spline basis abstract; lstsq = any solution of the normal equations; inverse = any matrix inverse. |
| C100 | ACRT standard errors do not depend on comparison units | regression with abstract basis; normal equations; derivative of the refitted cell estimate | Cont/Cell | proved: Infinitesimal-jackknife derivative over the reals with refitted regression; violation for every cell with a comparison unit and a nonzero influence. |
| C101 | Overall ATT standard error of cont_did accounts for comparison units | regression with abstract basis; normal equations; derivative of the refitted cell estimate | Cont/Cell, Cont/Dose, Cont/More | proved: True derivative of the overall ATT versus the reported influence; violation for every comparison unit off the comparison mean. |
| C102 | Overall weights of cont_did | overall weights, combination of cells, weight influence, event-study level; finite sums and derivatives | Cont/Agg, Cont/More | proved: max_event_time left at its default (none). |
| C103 | Cells without results do not bias overall effects | overall weights, combination of cells, weight influence, event-study level; finite sums and derivatives | Cont/Agg | proved: Failed cells are those for which cont_did_acrt returns no extra results. |
| C104 | Influence of estimated cohort shares in cont_did event studies | overall weights, combination of cells, weight influence, event-study level; finite sums and derivatives | Cont/Agg | proved: True derivative proved; code's term equals treated share times it for arbitrary cohorts and weights. |
| C105 | Event-study levels of cont_did are average effects | overall weights, combination of cells, weight influence, event-study level; finite sums and derivatives | Cont/Cell | proved: Regression branch of pte_attgt (taken whenever some dose exceeds 1); unit weights, intercept only. |
| C106 | Cell influence values reach the right units | placement of influence values, block bootstrap, setup_pte; list induction | Cont/Subset | proved: Order of polars unique() is a parameter. |
| C107 | Block bootstrap resamples whole units | placement of influence values, block bootstrap, setup_pte; list induction | Cont/Subset | proved: Random draw is an arbitrary list of ids. |
| C108 | setup_pte considers every treated cohort | placement of influence values, block bootstrap, setup_pte; list induction | Cont/Subset | proved: Cohort column over WithTop Int. |
| C109 | Influence function of the ATT curve | curve influence; alignment of lists and derivative over the reals | Cont/Dose | proved: Alignment for arbitrary lists of units; derivative of the curve over the reals. The mismatch of boundary knots between estimate and influence basis is not modelled. |
| C110 | A weighted bootstrap replicate is the estimator refitted with reweighted data | bootstrap replicates versus refits; scale invariance of the fitting equations; algebra of weighted sums | DR/Refit | proved: Fitting routines are oracles whose output depends on the weights only up to scale (true of the normal and score equations; normalEq_scale). |
| C111 | A bootstrap replicate of the improved estimators is a refit | bootstrap replicates versus refits; scale invariance of the fitting equations; algebra of weighted sums | DR/Refit, DR/RefitEx | proved: Positive part for untrimmed data; counterexamples with trimming for panel and repeated cross-sections. |
| C112 | Unit draws reproduce the traditional doubly robust estimate | bootstrap replicates versus refits; scale invariance of the fitting equations; algebra of weighted sums | DR/RefitEx, DR/RefitTrim | proved: Concrete data with closed-form weighted least squares. |
| C113 | Bootstrap of the Horvitz–Thompson estimator with repeated cross-sections | bootstrap replicates versus refits; scale invariance of the fitting equations; algebra of weighted sums | DR/Refit, DR/RefitEx | proved: Positive part when bootstrap weights average one and nothing is trimmed; counterexample otherwise. |
| C114 | The two-way fixed effects coefficient is a difference in differences | normal equations of the stacked design; linear algebra over finite sums | DR/Twfe | proved: Regression as solution of the normal equations of the design built by the code. |
| C115 | Unit constants cancel | normal equations of the stacked design; linear algebra over finite sums | DR/Twfe, DR/TwfeEx | proved: Estimators as modelled in DR.Model; counterexample for the analytic TWFE standard error. |
| C116 | TWFE multiplier bootstrap | normal equations of the stacked design; linear algebra over finite sums | DR/Twfe | proved: Influence function of the unit-level difference in weighted mean changes as specification. |
| C117 | Both rows of a unit share the unit's bootstrap draw | index algebra of tile and repeat; list induction | DR/Twfe, DR/TwfeEx | proved: Index identity for lists of any length; concrete replicate that differs. |
| C118 | Calibrated propensity scores balance the covariates | objective functions over the reals; directional derivatives, tangent inequalities, first-order conditions as balance | DR/Tilt | proved: Over the reals; convergence is a vanishing gradient; indices inside the clipping range of ±500. |
| C119 | The calibration objective is what the optimiser is told it is | objective functions over the reals; directional derivatives, tangent inequalities, first-order conditions as balance | DR/Tilt | proved: Minimiser among coefficients inside the clipping range (outside it the clipped value is not bounded below). |
| C120 | The fallback solves the same problem | objective functions over the reals; directional derivatives, tangent inequalities, first-order conditions as balance | DR/Tilt, DR/TiltEx | proved: Positive parts for all weights (derivatives, minimiser) and for unit weights (balance); counterexamples with weights. |
| C121 | Weighted quantile | cumulated weights and insertion point on lists; pivot order as a parameter | DR/Quant | proved: Positive parts for any order of ties given by argsort; counterexamples for the share and for tied values. |
| C122 | Quantile constraints apply to the requested columns | cumulated weights and insertion point on lists; pivot order as a parameter | DR/Quant | proved: Pivot order of the QR decomposition is an argument; the counterexample holds for every admissible pivot order. |
| C123 | Distributed att_gt estimates the same cells | list induction over cells; comparison with the single-machine plan and roles | Dist/Driver | proved |
| C124 | Distributed att_gt compares the same units | list induction over cells; comparison with the single-machine plan and roles | Dist/Driver | proved: Positive case proved; two violations proved (anticipation, coding of never-treated units). |
| C125 | Estimates are shown with their own influence values | positions in sorted lists; folds of row updates in any order of completion | Dist/DriverIF | proved: Proved when no cell fails; otherwise refuted. |
| C126 | Influence values are stored with their unit | positions in sorted lists; folds of row updates in any order of completion | Dist/DriverIF | proved: Proved for panels; refuted for repeated cross-sections between cells. |
| C127 | Placement of rows in partitions does not matter | positions in sorted lists; folds of row updates in any order of completion | Dist/DriverIF | proved: Proved for Spark; refuted for Dask. |
| C128 | Distributed att_gt uses base-period covariates | minimum of the joined periods; any generalized inverse of a constant covariance | Dist/DriverIF | proved: Refuted in general; proved for the earliest base period. |
| C129 | Repeated pooled comparison is harmless | minimum of the joined periods; any generalized inverse of a constant covariance | Dist/DriverIF | proved |
| C130 | Units of an unbalanced panel | minimum of the joined periods; any generalized inverse of a constant covariance | Dist/DriverIF | proved: Proved for the not-yet-treated path and balanced panels; refuted for the pivot path. |
| C131 | Bootstrap standard errors and units | order statistics characterised by counting; linear interpolation; folds of maxima | Boot/Quant | proved: Positive parts proved; absolute cut-off refutes unit invariance. |
| C132 | Simultaneous critical value | order statistics characterised by counting; linear interpolation; folds of maxima | Boot/Quant | proved |
| C133 | Cells that affect the band of others | order statistics characterised by counting; linear interpolation; folds of maxima | Boot/Quant, Boot/Quant2 | proved: Characterised; one degenerate cell removes the value (refuted). |
| C134 | Bands are not narrower than intervals | case analysis of the reporting rules; linearity of the draws; quadratic form as a sum of squares | Boot/Quant2 | proved: Proved for compute_agg_ddd; refuted for att_gt, aggte, ddd_mp. |
| C135 | Overall standard error from stored draws | case analysis of the reporting rules; linearity of the draws; quadratic form as a sum of squares | Boot/Quant2 | proved: Proved; GMM cells of ddd_mp ignore the bootstrap (refuted). |
| C136 | Wald pre-test | case analysis of the reporting rules; linearity of the draws; quadratic form as a sum of squares | Boot/Quant2 | proved: Proved; anticipation window enters the test (refuted). |
| C137 | Standard errors do not depend on how periods are numbered | the masks and counts depend on the outcome only through missingness; residuals of rows with a weight are centred; renumbering commutes with every definition | Inter/VarProps | proved: Proved for periods numbered from 1; refuted below. |
| C138 | Common shocks cancel in did_multiplegt | the masks and counts depend on the outcome only through missingness; residuals of rows with a weight are centred; renumbering commutes with every definition | Inter/VarCluster, Inter/VarShock | proved: Proved; refuted when a cell is one cluster. |
| C139 | Units of measurement in did_multiplegt | the masks and counts depend on the outcome only through missingness; residuals of rows with a weight are centred; renumbering commutes with every definition | Inter/VarShock | proved: Proved. |
| C140 | Clustered standard errors of did_multiplegt | sums over images; algebra of the sample covariance; sign analysis; concrete counterexamples | Inter/VarCluster | proved: Formula proved; single cluster, missing cluster and unit-level clusters refuted. |
| C141 | Covariance matrix behind the joint tests | sums over images; algebra of the sample covariance; sign analysis; concrete counterexamples | Inter/VarCluster | proved: Relation proved; equality with the reported standard errors refuted. |
| C142 | Normalised standard errors are not negative | sums over images; algebra of the sample covariance; sign analysis; concrete counterexamples | Inter/VarCluster | proved: Proved for non-negative normalisers; refuted otherwise. |
| C143 | Standard error of the average total effect | sums over images; algebra of the sample covariance; sign analysis; concrete counterexamples | Inter/VarCluster | proved: Proved without clusters and with all horizons; clusters, missing horizons, trends_lin refuted. |
| C144 | Covariates absorb what they explain | uniqueness of the regression coefficients; the in-bracket sum vanishes; adjointness of the contrast matrix | Inter/Controls | proved: Proved for effects; placebos and unidentified levels refuted. |
| C145 | Covariate-adjusted effects and nuisance levels | uniqueness of the regression coefficients; the in-bracket sum vanishes; adjointness of the contrast matrix | Inter/Controls | proved: Origins proved; common shocks refuted. |
| C146 | First-stage uncertainty of covariate coefficients | uniqueness of the regression coefficients; the in-bracket sum vanishes; adjointness of the contrast matrix | Inter/Controls | proved: Refuted for every input; what is subtracted instead is proved. |
| C147 | Test of equal effects | uniqueness of the regression coefficients; the in-bracket sum vanishes; adjointness of the contrast matrix | Inter/EqualTest | proved: Proved; availability with a missing horizon refuted. |
| C148 | Influence values of the triple difference are derivatives of its estimate | chain rule through the three comparisons, their factors and the weight normalisation; the two-period derivative theorems (C72); exact solvers on concrete designs | Triple/Deriv, Triple/DerivEx, Triple/DerivRC | proved: ddd_panel: all methods; ddd_rc: reg and ipw; C148_rc_dr_violated settles the dr case, C148_rc_gap gives the exact distance |
| C149 | The bias used by the fixed-length interval is the worst case over Delta^SD(M) | two summations by parts turn the bias into a sum over second differences; explicit extremal path; tight stacked variables; unbounded bias along trends | Honest/FlciProps | proved: The worst-case claim is proved (sound, sharp for a non-negative weighted horizon, minimax); the code overstates the bias for a negative weighted horizon (C149_negative_violated, C149_reflection_violated). Solver contract: exact minimiser. |
| C150 | The variance constraint of the fixed-length interval is the variance of the returned estimator | two summations by parts turn the bias into a sum over second differences; explicit extremal path; tight stacked variables; unbounded bias along trends | Honest/FlciCover, Honest/FlciProps | proved: Exact arithmetic; convex solver by contract. |
| C151 | Fixed-length intervals ignore linear trends and move with the effects | two summations by parts turn the bias into a sum over second differences; explicit extremal path; tight stacked variables; unbounded bias along trends | Honest/FlciProps | proved |
| C152 | folded_normal_quantile is the quantile of |N(mu, sd^2)| | distribution function of the Gaussian measure of Mathlib; intermediate value theorem; comparison of shifted densities | Honest/FoldedNormal | proved: norm.cdf = Mathlib Gaussian distribution function; halfnorm.ppf and brentq by contract. |
| C153 | compute_flci covers the parameter with probability at least 1 - alpha | law of the linear combination; monotonicity of P(|N(b,s^2)| <= c) in |b| and s; convexity argument for the binding constraint | Honest/FlciCover, Honest/FlciRun | proved: Joint normality stated as normality of every linear combination. |
| C154 | The golden-section search over h ends and finds the minimum | loop invariant with the golden-ratio identity; geometric shrinkage; negative tolerance | Honest/Golden | proved: Proved; the reversed range is a violation (C154_reversed_violated). |
| C155 | The truncated-normal critical value is the quantile of the truncated distribution | Truncated-normal quantile via the normal cdf (Honest/Trunc.lean) | Honest/Trunc | proved: Violated for NaN truncation points (C155_nan_violated). |
| C156 | The truncation points of the conditional tests describe the conditioning event | argmax and truncation points for both versions of compute_bounds; decomposition into statistic and residual (Honest/ArpCond.lean) | Honest/ArpCond | proved |
| C157 | The conditional test behind the lower bound on M has level alpha | Gaussian coefficients as laws of all linear combinations; independence of statistic and residual, monotone likelihood ratio of truncated normals, sum over the selection events (Honest/ArpSection, ArpIndep, ArpCore, ArpSize); the violation by an explicit covariance matrix and Chebyshev (ArpViol) | Honest/ArpSize | proved |
| C158 | The least-favourable hybrid test has level alpha | Gaussian coefficients as laws of all linear combinations; independence of statistic and residual, monotone likelihood ratio of truncated normals, sum over the selection events (Honest/ArpSection, ArpIndep, ArpCore, ArpSize); the violation by an explicit covariance matrix and Chebyshev (ArpViol) | Honest/ArpSize | proved: The first-stage size is a hypothesis: lf_cv is simulated in the code. |
| C159 | The conditional test with homogeneous restrictions has level alpha | Gaussian coefficients as laws of all linear combinations; independence of statistic and residual, monotone likelihood ratio of truncated normals, sum over the selection events (Honest/ArpSection, ArpIndep, ArpCore, ArpSize); the violation by an explicit covariance matrix and Chebyshev (ArpViol) | Honest/ArpSize | proved |
| C160 | The conditional test with a constant right-hand side has level alpha | Gaussian coefficients as laws of all linear combinations; independence of statistic and residual, monotone likelihood ratio of truncated normals, sum over the selection events (Honest/ArpSection, ArpIndep, ArpCore, ArpSize); the violation by an explicit covariance matrix and Chebyshev (ArpViol) | Honest/ArpViol | proved: Violated as stated: C160_size_violated; the valid case d = 0 is C159. |
| C161 | The conditional confidence interval is the hull of the accepted values and covers | compute_arp_ci as a grid search, hull of accepted points, coverage from the size theorems; union over pieces through C62 (Honest/ArpCI, ArpCIProps) | Honest/ArpCI | proved: lf_cv as in C158; grid points exact (floating-point linspace not modelled). |
| C162 | Confidence sets with one post-period are computed around the estimate | compute_arp_ci as a grid search, hull of accepted points, coverage from the size theorems; union over pieces through C62 (Honest/ArpCI, ArpCIProps) | Honest/ArpCIProps | proved: Violated as stated: C162_*_violated. |
| C163 | The grid search for the ends of a confidence interval with nuisance parameters | the binary search modelled with its loops; invariants by well-founded induction; counterexamples evaluated | Honest/ArpSearch | proved: exactness for contiguous acceptance proved; the general claim is violated (C163_gap_violated) |
| C164 | The reparametrisation by the target isolates the target | the matrix with its determinant (Laplace expansion) and inverse; equivalence of the tested null and the English null | Honest/ArpGamma | proved |
| C165 | Decisions of the test with nuisance parameters that hold surely | lp_conditional_test modelled branch by branch (solver and bisection as parameters with stated correctness); primal truncation points shown to be exact ends of the optimality region of the basis, then the conditional normal argument over finitely many dual vertices | Honest/ArpLpProps | proved |
| C166 | Size of the conditional test with nuisance parameters | lp_conditional_test modelled branch by branch (solver and bisection as parameters with stated correctness); primal truncation points shown to be exact ends of the optimality region of the basis, then the conditional normal argument over finitely many dual vertices | Honest/ArpLpProps | proved |
| C167 | Size of the least-favourable hybrid with nuisance parameters | lp_conditional_test modelled branch by branch (solver and bisection as parameters with stated correctness); primal truncation points shown to be exact ends of the optimality region of the basis, then the conditional normal argument over finitely many dual vertices | Honest/ArpLpProps | proved |
| C168 | Size of the FLCI hybrid with nuisance parameters | lp_conditional_test modelled branch by branch (solver and bisection as parameters with stated correctness); primal truncation points shown to be exact ends of the optimality region of the basis, then the conditional normal argument over finitely many dual vertices | Honest/ArpLpProps | proved |
| C169 | Coverage of the confidence interval with nuisance parameters | affine image of the normal coefficients, C164 and C166-C168, search C163 | Honest/ArpNuisCi | proved |
| C170 | Size of the test without nuisance parameters (x_t=None) | union bound and product measure | Honest/ArpNone | proved: violated: size 1-(1-alpha)^k; bound k*alpha proved |
| C171 | Grid and length of the confidence interval with nuisance parameters | grid algebra and telescoping sums | Honest/ArpNone | proved: default grid claim violated (centred at zero); the rest proved |
| C172 | honest_did takes the right coefficients out of the event study | Model of honest_did._honest_did_aggte as a list program; filter/erase lemmas for ascending event times | Honest/Sens | proved: positives plus C172_gap_violated |
| C173 | Coverage of the original confidence interval | Normal law of a linear combination (cover_eq), monotonicity of the folded normal in the bias | Honest/Sens | proved |
| C174 | Rows of the sensitivity tables | Model of both table functions and of the dispatch; induction over the list of values; head and last of the filtered grid | Honest/SensTable | proved: positives plus C174_direction_violated |
| C175 | Default values of M and the grid arguments | Model of both table functions and of the dispatch; induction over the list of values; head and last of the filtered grid | Honest/SensTable | proved: positives plus the three _violated theorems |
| C176 | End-to-end coverage of honest_did under smoothness | Bijection between coefficient positions and event times; composition of C172 and C153 | Honest/SensFlci | proved |
| C177 | The grid of a sensitivity table contains the effect | Bounds of a summarised set lie in the grid range; identified set at Mbar=0 via C62; normal tail | Honest/SensGrid | proved: C177_union plus the two _violated theorems |
| C178 | Distributed triple-difference cell equals the single-machine one | Ddd.lean, DddRC.lean: reduce each comparison of the distributed cell to the difference-in-differences cell theorems (C46, CellRC) by reindexing the filtered rows | Dist/Ddd | proved: C178_cell/C178_ddd_panel/C178_fits/C178_codes plus two _violated theorems |
| C179 | Distributed triple-difference cell on repeated cross-sections | Ddd.lean, DddRC.lean: reduce each comparison of the distributed cell to the difference-in-differences cell theorems (C46, CellRC) by reindexing the filtered rows | Dist/DddRC | proved: C179_cell for dr and ipw; C179_reg_violated gives the exact gap for reg, C179_reg_stationary when it closes |
| C180 | Not-yet-treated controls on repeated cross-sections, distributed ddd | DddDriver.lean, DddMulti.lean: the distributed ddd driver (cells, controls, placement, scatter of influence values) and the combination of comparison cohorts, compared with Triple.Multi | Dist/DddDriver | proved: positives: C180_prefix; the two _violated theorems show every such call raises |
| C181 | Results do not depend on where the rows are placed | DddDriver.lean, DddMulti.lean: the distributed ddd driver (cells, controls, placement, scatter of influence values) and the combination of comparison cohorts, compared with Triple.Multi | Dist/DddDriver | proved: C181_spark/C181_dask/C181_never_spark plus _violated for Dask |
| C182 | Comparison cohorts of distributed ddd | DddDriver.lean, DddMulti.lean: the distributed ddd driver (cells, controls, placement, scatter of influence values) and the combination of comparison cohorts, compared with Triple.Multi | Dist/DddDriver | proved: C182_controls, C182_never; C182_infinity_violated |
| C183 | Combination of comparison cohorts in distributed ddd | DddDriver.lean, DddMulti.lean: the distributed ddd driver (cells, controls, placement, scatter of influence values) and the combination of comparison cohorts, compared with Triple.Multi | Dist/DddMulti | proved: C183_multi; C183_extra_violated gives the exact factor |
| C184 | Distributed did_multiplegt estimate | Inter/Dist.lean, DistVar.lean, DistFilter.lean: group sums and scalars merged over an arbitrary list of partitions equal sums over the whole frame (induction over the merge), then reduce to the single-machine Horizon/VarModel theorems; filters and horizon counts are compared set-theoretically | Inter/Dist | proved: Positive part plus _violated theorems for switchers without controls. |
| C185 | Distributed normalised effects | Inter/Dist.lean, DistVar.lean, DistFilter.lean: group sums and scalars merged over an arbitrary list of partitions equal sums over the whole frame (induction over the merge), then reduce to the single-machine Horizon/VarModel theorems; filters and horizon counts are compared set-theoretically | Inter/Dist | proved: Equal without missing doses; violated with one. |
| C186 | Distributed influence values and standard errors of did_multiplegt | Inter/Dist.lean, DistVar.lean, DistFilter.lean: group sums and scalars merged over an arbitrary list of partitions equal sums over the whole frame (induction over the merge), then reduce to the single-machine Horizon/VarModel theorems; filters and horizon counts are compared set-theoretically | Inter/DistVar | proved: Equal with a control for every candidate; dilution factor otherwise. |
| C187 | Cluster counts and trend strata in distributed did_multiplegt | Inter/Dist.lean, DistVar.lean, DistFilter.lean: group sums and scalars merged over an arbitrary list of partitions equal sums over the whole frame (induction over the merge), then reduce to the single-machine Horizon/VarModel theorems; filters and horizon counts are compared set-theoretically | Inter/DistVar | proved: Distributed counts proved; single-machine count and trend strata shown to differ. |
| C188 | Covariance matrix of distributed did_multiplegt | Inter/Dist.lean, DistVar.lean, DistFilter.lean: group sums and scalars merged over an arbitrary list of partitions equal sums over the whole frame (induction over the merge), then reduce to the single-machine Horizon/VarModel theorems; filters and horizon counts are compared set-theoretically | Inter/DistVar | proved: Formula proved; difference with dropped units shown. |
| C189 | Placement dependence of the distributed did_multiplegt filters | Inter/Dist.lean, DistVar.lean, DistFilter.lean: group sums and scalars merged over an arbitrary list of partitions equal sums over the whole frame (induction over the merge), then reduce to the single-machine Horizon/VarModel theorems; filters and horizon counts are compared set-theoretically | Inter/DistFilter | proved: Subset and colocated case proved; placement dependence shown. |
| C190 | Number of horizons in distributed did_multiplegt | Inter/Dist.lean, DistVar.lean, DistFilter.lean: group sums and scalars merged over an arbitrary list of partitions equal sums over the whole frame (induction over the merge), then reduce to the single-machine Horizon/VarModel theorems; filters and horizon counts are compared set-theoretically | Inter/DistFilter | proved: Exact rule proved; difference for unbalanced panels shown. |
| C191 | Covariate regression of distributed did_multiplegt | Inter/DistControls.lean: tree_reduce evaluates some binary tree over its inputs; additive statistics of the merged dictionaries are sums over all rows; then compare with ControlsModel (C144-C146) | Inter/DistControls | proved: Equal under stated conditions; two _violated gaps. |
| C192 | Distributed did_multiplegt effects with covariates | Inter/DistControls.lean: tree_reduce evaluates some binary tree over its inputs; additive statistics of the merged dictionaries are sums over all rows; then compare with ControlsModel (C144-C146) | Inter/DistControls | proved |
| C193 | Standard errors of distributed did_multiplegt with covariates | Inter/DistControls.lean: tree_reduce evaluates some binary tree over its inputs; additive statistics of the merged dictionaries are sums over all rows; then compare with ControlsModel (C144-C146) | Inter/DistControls | proved: Exact difference proved; standard errors shown to differ. |
| C194 | predict_het: which units and which outcome changes are regressed | Units are lists of rows; the sample is compared with a first-order description of the observed outcomes; the regression is any solution of the weighted normal equations with the dummy columns the code builds, uniqueness from a positive quadratic form, dummies shown to span every function of their variable. Inter/Het.lean | Inter/Het | proved |
| C195 | predict_het: what the coefficients measure | Units are lists of rows; the sample is compared with a first-order description of the observed outcomes; the regression is any solution of the weighted normal equations with the dummy columns the code builds, uniqueness from a positive quadratic form, dummies shown to span every function of their variable. Inter/Het.lean | Inter/Het | proved: settled: positives C195_shift, C195_recovers, C195_common_shock, C195_order; the two-direction part is refuted by C195_shock_violated |
| C196 | predict_het with trends_lin or missing first rows | Units are lists of rows; the sample is compared with a first-order description of the observed outcomes; the regression is any solution of the weighted normal equations with the dummy columns the code builds, uniqueness from a positive quadratic form, dummies shown to span every function of their variable. Inter/Het.lean | Inter/Het | proved: settled: refuted by C196_trends_violated, C196_weight_violated, C196_late_violated; C196_trends gives the exact value |
| C197 | Distributed cont_did analyses the same panel as cont_did | Partition-wise preprocessing composed with the existing model of the single-machine pipeline (equality by permutation arguments), inferred cohorts as minima over partitions, completion orders as permutations of a keyed result list, scheduler memory as a partial function of task names, event-study levels through the existing cell estimator. Cont/Dist.lean | Cont/Dist | proved: settled: C197_agree, C197_infer, C197_infer_agree, C197_local_dose; the unconditional claim is refuted by C197_zero_dose_violated and C197_last_period_violated |
| C198 | Distributed cont_did does not depend on scheduling or earlier runs | Partition-wise preprocessing composed with the existing model of the single-machine pipeline (equality by permutation arguments), inferred cohorts as minima over partitions, completion orders as permutations of a keyed result list, scheduler memory as a partial function of task names, event-study levels through the existing cell estimator. Cont/Dist.lean | Cont/Dist | proved: settled: C198_any_order, C198_placement; independence of earlier runs refuted by C198_stale_violated |
| C199 | Distributed event studies of cont_did use outcome changes | Partition-wise preprocessing composed with the existing model of the single-machine pipeline (equality by permutation arguments), inferred cohorts as minima over partitions, completion orders as permutations of a keyed result list, scheduler memory as a partial function of task names, event-study levels through the existing cell estimator. Cont/Dist.lean | Cont/Dist | proved: settled: refuted by C199_level_violated and C199_fixed_effect_violated; C199_agree_iff is the exact condition |
| C200 | Candidate sieve dimensions respect the complexity limit | Grid scan and Lepski rule over arbitrary comparison outcomes (failed ones infinite), extended non-negative reals; induction on the scan; first-match characterisation. | Npiv/SelectThm | proved: positive part under feasibility of the smallest candidate; violations as theorems |
| C201 | The selected sieve dimension is the smallest that passes all comparisons | Grid scan and Lepski rule over arbitrary comparison outcomes (failed ones infinite), extended non-negative reals; induction on the scan; first-match characterisation. | Npiv/SelectThm | proved |
| C202 | A failed comparison does not decide the sieve dimension | Grid scan and Lepski rule over arbitrary comparison outcomes (failed ones infinite), extended non-negative reals; induction on the scan; first-match characterisation. | Npiv/SelectThm | proved |
| C203 | The variance that studentizes a comparison is the variance of its bootstrap draws | Fits as matrices independent of the outcome; variance algebra; expectations as Bochner integrals; order statistics of the draws. | Npiv/Band | proved |
| C204 | Uniform confidence bands: centring, calibration, units | Fits as matrices independent of the outcome; variance algebra; expectations as Bochner integrals; order statistics of the draws. | Npiv/Band | proved: violations as theorems |
| C205 | The sieve estimator is two-stage least squares | Matrix algebra with the Penrose conditions for the generalized inverse. | Npiv/Tsls | proved |
| C206 | Support bounds mean the same in estimation, selection and bands | Case analysis of the options; column counts of the sieves. | Npiv/SelectThm | proved |
| C207 | Comparisons are studentized by the variance of the fits compared | Case analysis of the options; column counts of the sieves. | Npiv/SelectThm | proved |
| C208 | Coding of never-treated units in ddd() | The dispatch of ddd() over its options and a list of rows with estimators as parameters (Triple/Entry); exact characterisations of when routes and codes differ, counterexamples run through the model. | Triple/Entry | proved: settled: exact characterisation and a violation |
| C209 | Options that reach the estimator in ddd() | The dispatch of ddd() over its options and a list of rows with estimators as parameters (Triple/Entry); exact characterisations of when routes and codes differ, counterexamples run through the model. | Triple/Entry | proved: settled: violation for cluster, positives for the rest |
| C210 | Unbalanced panels in ddd() | The dispatch of ddd() over its options and a list of rows with estimators as parameters (Triple/Entry); exact characterisations of when routes and codes differ, counterexamples run through the model. | Triple/Entry | proved: settled: violation and the exact effect of the option |
| C211 | Who is treated in the two-period triple difference | The dispatch of ddd() over its options and a list of rows with estimators as parameters (Triple/Entry); exact characterisations of when routes and codes differ, counterexamples run through the model. | Triple/Entry | proved: settled: exact characterisation and a violation |
| C212 | Group-time triple difference on repeated cross-sections | ddd_mp_rc on the rows of Triple/Multi with row numbers as units (Triple/MultiRC); influence bookkeeping as in C53, standard errors by reduction to C78, agreement of the group-time with the two-period routes by computing the single cell. | Triple/MultiRC | proved: settled: positives and the alignment violation |
| C213 | Standard error of a cross-sectional cell with several comparison cohorts | ddd_mp_rc on the rows of Triple/Multi with row numbers as units (Triple/MultiRC); influence bookkeeping as in C53, standard errors by reduction to C78, agreement of the group-time with the two-period routes by computing the single cell. | Triple/MultiRC | proved: settled: the exact factor and the violation |
| C214 | Group-time and two-period triple differences agree | ddd_mp_rc on the rows of Triple/Multi with row numbers as units (Triple/MultiRC); influence bookkeeping as in C53, standard errors by reduction to C78, agreement of the group-time with the two-period routes by computing the single cell. | Triple/MultiRC | proved: proved for both data types |
| C215 | Intervals of two-period estimators from bootstrap draws | The interval block after the draws with numpy percentiles (Boot/Interval); positive homogeneity of percentiles makes the standard error cancel. | Boot/Interval | proved: settled: positives and the degenerate violation |
| C216 | Options accepted by drdid, ipwdid and ordid | the three two-period functions from data frame to estimate: option checks, validators, null handling, weight normalisation, balancing, array building and the estimators of C25-C30/C110; frame-level sums computed by list/Finset reindexing | DR/Entry | proved |
| C217 | drdid, ipwdid and ordid on a panel without covariates | the three two-period functions from data frame to estimate: option checks, validators, null handling, weight normalisation, balancing, array building and the estimators of C25-C30/C110; frame-level sums computed by list/Finset reindexing | DR/EntryProps | proved |
| C218 | Row order of two-period panels | the three two-period functions from data frame to estimate: option checks, validators, null handling, weight normalisation, balancing, array building and the estimators of C25-C30/C110; frame-level sums computed by list/Finset reindexing | DR/EntryProps | proved |
| C219 | Two-period functions on repeated cross-sections without covariates | the three two-period functions from data frame to estimate: option checks, validators, null handling, weight normalisation, balancing, array building and the estimators of C25-C30/C110; frame-level sums computed by list/Finset reindexing | DR/EntryRC | proved |
| C220 | Which doubly robust estimator runs on repeated cross-sections | the three two-period functions from data frame to estimate: option checks, validators, null handling, weight normalisation, balancing, array building and the estimators of C25-C30/C110; frame-level sums computed by list/Finset reindexing | DR/EntryEff | proved: general formulas proved for all four methods; the documented (3.4) is refuted for the default method |
| C221 | An accepted two-period panel uses both arms | the three two-period functions from data frame to estimate: option checks, validators, null handling, weight normalisation, balancing, array building and the estimators of C25-C30/C110; frame-level sums computed by list/Finset reindexing | DR/EntryCov | proved: proved for drdid trad and ipwdid std_ipw, refuted for ordid |
| C222 | Period of the covariates in two-period panels | the three two-period functions from data frame to estimate: option checks, validators, null handling, weight normalisation, balancing, array building and the estimators of C25-C30/C110; frame-level sums computed by list/Finset reindexing | DR/EntryCov | proved: pre-period covariates proved irrelevant for all frames; adjustment for pre-treatment covariates refuted |
| C223 | Identified sets under relative magnitudes with a sign or monotonicity restriction | One definition covers the six functions; the stacked rows are those of the code, the two linear programs of each reference and sign are given by any exact solver. The s=0 programs are shown to be unbounded, infeasible or trivial, so they contribute exactly the point estimate; the remaining references are matched with the specification of Rambachan and Roth. | Honest/CombinedEx, Honest/CombinedProps | proved: Positive parts proved; the two violated clauses are theorems with concrete instances. |
| C224 | Cells of the panel treatment effects estimator in calendar terms | Cont/Pte*: recoding, two-by-two cells, labels, aggregation with both bootstraps, replicate bookkeeping and quantile mixtures modelled on lists of rows and cells; counting and order arguments, a loop invariant for the binary search | Cont/Pte | proved: C224_cell proves the positive part; C224_between_violated the exception |
| C225 | Reported cells carry calendar labels | Cont/Pte*: recoding, two-by-two cells, labels, aggregation with both bootstraps, replicate bookkeeping and quantile mixtures modelled on lists of rows and cells; counting and order arguments, a loop invariant for the binary search | Cont/PteProps | proved: C225_labels proves the positive part; C225_labels_violated and C225_shares_violated the exception |
| C226 | Point estimates do not depend on the kind of bootstrap | Cont/Pte*: recoding, two-by-two cells, labels, aggregation with both bootstraps, replicate bookkeeping and quantile mixtures modelled on lists of rows and cells; counting and order arguments, a loop invariant for the binary search | Cont/PteProps | proved: C226_event_study and C226_overall (closed forms) are the positive part; three violated theorems |
| C227 | Aggregation weights of the empirical path reproduce the effects | Cont/Pte*: recoding, two-by-two cells, labels, aggregation with both bootstraps, replicate bookkeeping and quantile mixtures modelled on lists of rows and cells; counting and order arguments, a loop invariant for the binary search | Cont/PteProps | proved |
| C228 | Standard errors of the empirical bootstrap | Cont/Pte*: recoding, two-by-two cells, labels, aggregation with both bootstraps, replicate bookkeeping and quantile mixtures modelled on lists of rows and cells; counting and order arguments, a loop invariant for the binary search | Cont/PteBoot | proved: C228_event, C228_missing positive; four violated theorems |
| C229 | Quantile treatment effects read the quantile of the mixture | Cont/Pte*: recoding, two-by-two cells, labels, aggregation with both bootstraps, replicate bookkeeping and quantile mixtures modelled on lists of rows and cells; counting and order arguments, a loop invariant for the binary search | Cont/PteQuant | proved: C229_quantile, C229_exact positive; C229_range_violated |
| C230 | Quantiles of the treatment effect distribution | Cont/Pte*: recoding, two-by-two cells, labels, aggregation with both bootstraps, replicate bookkeeping and quantile mixtures modelled on lists of rows and cells; counting and order arguments, a loop invariant for the binary search | Cont/PteQuant | proved: C230_quantile positive; two violated theorems |
| C231 | Clustering options of att_gt and aggte | Boot/ClusterOpts.lean: labels of att_gt/aggte composed with the draw-variance theorems of C77; the violations are proved for all panels. | Boot/ClusterOpts | proved: Positive part proved; the documented [idname, v] specification, underscore collisions and aggte are settled by the _violated theorems. |
| C232 | Confidence sets for relative magnitudes with several post-periods | C232: the six confidence-set functions for several post-periods as unions over (reference difference, sign) of the conditional test with nuisance parameters (C169); Farkas lemma (Fourier-Motzkin) gives existence of exact basic solvers | Honest/ArpUnion | proved: Exact LP solver with basic solutions and exact truncation search are hypotheses (ToolsOk) met by constructed exact solvers (Honest/ArpExist.lean, via a proof of Farkas lemma); regularity of the moments (RegularLp) and contiguity of acceptance as in C165-C169. For first differences the maximal pre-difference may not be only the first (C61). |
| C233 | Dose responses of the cck estimator | Model of the cck branch over the npiv fit (basis matrix, evaluation matrix, coefficient map); linear algebra for invariance, recovery, and cancellation of influence values; bands as functions of the level argument. | Cont/Cck | proved: Positive parts proved; the clause about standard errors of ATT(d) is refuted by C233_untreated_ignored_violated. |
| C234 | Average derivative and critical values of the cck estimator | Model of the cck branch over the npiv fit (basis matrix, evaluation matrix, coefficient map); linear algebra for invariance, recovery, and cancellation of influence values; bands as functions of the level argument. | Cont/Cck | proved: Positive parts proved; the level of the uniform bands is refuted by C234_level_violated. |
| C235 | Printed summaries of att_gt and aggte | Model of the parameter dictionary, critical values, labels and rows of the printed tables and of the plot converters; coverage through the normal quantile lemmas; list induction. | Report/Props | proved: Positive parts proved; the two violated clauses are refuted by C235_inherited_level_violated and C235_label_violated. |
| C236 | Plot data | Model of the parameter dictionary, critical values, labels and rows of the printed tables and of the plot converters; coverage through the normal quantile lemmas; list induction. | Report/Props | proved: Positive parts proved; the single-value clause is refuted by C236_original_violated. |
| C237 | Truncation points of the degenerate conditional test | search for truncation points as iteration with fuel = iteration limit, distance bounds from concavity of the value; FLCI stage as linear functional, kinked violations | Honest/ArpDual | proved: claimed tolerance settled by C237_tolerance_violated, the rest proved |
| C238 | FLCI hybrid under relative second differences | search for truncation points as iteration with fuel = iteration limit, distance bounds from concavity of the value; FLCI stage as linear functional, kinked violations | Honest/SdrmFlci | proved: coverage settled by C238_flci_coverage_violated |
| C239 | Group assignment of the data generators | generators as deterministic functions of covariates, a uniform draw and noise; interval lengths for assignment, integrals over mean-zero noise for outcomes | Sim/Assign | proved |
| C240 | dgp_type selects the correct working models | generators as deterministic functions of covariates, a uniform draw and noise; interval lengths for assignment, integrals over mean-zero noise for outcomes | Sim/Trends | proved |
| C241 | Triple-difference generators satisfy their identifying assumption | generators as deterministic functions of covariates, a uniform draw and noise; interval lengths for assignment, integrals over mean-zero noise for outcomes | Sim/Trends | proved |
| C242 | gen_did_scalable satisfies parallel trends | generators as deterministic functions of covariates, a uniform draw and noise; interval lengths for assignment, integrals over mean-zero noise for outcomes | Sim/Trends | proved: settled by C242_did_violated |
| C243 | Reported truths of the triple-difference generators | generators as deterministic functions of covariates, a uniform draw and noise; interval lengths for assignment, integrals over mean-zero noise for outcomes | Sim/Cont | proved: proportions settled by C243_proportion_violated |
| C244 | Simulated continuous-treatment panel | generators as deterministic functions of covariates, a uniform draw and noise; interval lengths for assignment, integrals over mean-zero noise for outcomes | Sim/Cont | proved: num_groups and D settled by the _violated theorems |
| C245 | Binning of factor values | Exact finite-list model of bin_factor and create_interactions (`Honest/Factor.lean`): levels as strictly increasing lists, groupings by index arithmetic, columns as lists. | Honest/Factor | proved: Violated part: numpy stores names cut at the width of the text array. |
| C246 | Dummy variables and interactions | Exact finite-list model of bin_factor and create_interactions (`Honest/Factor.lean`): levels as strictly increasing lists, groupings by index arithmetic, columns as lists. | Honest/Factor | proved: Violated parts: unknown reference ignored; pair names ambiguous. |
| C247 | The printed p-value and the star of a two-period result tell the same story | model the printed p-value, the intervals and the star over the reals with the standard normal distribution function; the bounds 0.975 < Phi(1.96) < 0.97501 are proved by integrating the alternating series of exp(-t^2/2) (Report/Normal.lean, Report/PValue.lean) | Report/PValue | proved: proved for analytical standard errors; the bootstrap and boundary cases are settled as violated |
| C248 | The interval of 1.96 standard errors has coverage between 0.95 and 0.95002 | model the printed p-value, the intervals and the star over the reals with the standard normal distribution function; the bounds 0.975 < Phi(1.96) < 0.97501 are proved by integrating the alternating series of exp(-t^2/2) (Report/Normal.lean, Report/PValue.lean) | Report/PValue | proved |
| C249 | att_gt without covariates is unbiased under parallel trends | random outcomes over a probability space, expectation of the modelled estimator computed in closed form from the assumptions | Ident/AttGt | proved |
| C250 | aggte is unbiased for the share-weighted mean effects | random outcomes over a probability space, expectation of the modelled estimator computed in closed form from the assumptions | Ident/Agg | proved |
| C251 | Regression and doubly robust DiD are unbiased when the outcome model holds | random outcomes over a probability space, expectation of the modelled estimator computed in closed form from the assumptions | Ident/Reg | proved |
| C252 | Reported covariates of the simulated data are standardised | Gaussian moments and moment generating function from Mathlib, independence for the cross terms | Sim/Standard | proved |
| C253 | Triple differences are unbiased when the outcome models hold | expectation of each comparison by unbiasedness of least squares, combined by the triple-difference assumption | Ident/Ddd | proved |
| C254 | Analytic standard error without covariates, and its bias | influence values computed in closed form; second moments of arm sums under uncorrelatedness | Ident/Variance | proved |
| C255 | did_multiplegt effects are unbiased, placebos have mean zero, and normalised effects flip sign for decreases | the design and the covariates are fixed, outcomes are random variables on an arbitrary probability space; expectation is taken through the modelled estimators (exact linearity of each in the outcomes), using the normal equations of the fits only | Ident/Inter | proved: effects and placebos proved; the sign of the normalised effect for decreases is settled by C255_slope_violated |
| C256 | What the repeated-cross-section estimators estimate under linear models | the design and the covariates are fixed, outcomes are random variables on an arbitrary probability space; expectation is taken through the modelled estimators (exact linearity of each in the outcomes), using the normal equations of the fits only | Ident/RegRC | proved: drdid_rc proved; the two composition-sensitive estimators are settled by C256_composition_violated and proved under stable covariate means |
| C257 | Triple differences on repeated cross-sections are unbiased under linear models | the design and the covariates are fixed, outcomes are random variables on an arbitrary probability space; expectation is taken through the modelled estimators (exact linearity of each in the outcomes), using the normal equations of the fits only | Ident/DddRC | proved: est_method dr; reg and ipw depend on the composition of the subgroups over time (compare C256) |
| C258 | reg_did_panel is consistent and its analytic 95% interval covers in large samples | Large-sample theory in Lean: strong law (Mathlib), central limit theorem (Mathlib), Slutsky for combinations of sample means with converging coefficients; the estimator and its influence function are rewritten exactly as such combinations on samples with full rank, and the events where they are undefined vanish; the interval is the reported one, att ± 1.96 se with the code standard error. | Asym/Reg | proved: The solver is the inverse of the Gram matrix (any least-squares routine returns the same coefficients at full rank). Boundary: exact real arithmetic; the condition-number check (cond > 1e15) is not modelled, it can only raise an error. |
| C259 | Cells of att_gt with regression adjustment: consistent, and pointwise intervals with correct limiting coverage, until the NaN tolerance | strong law and central limit theorem applied to the estimator as a function of sample moments (Asym.Basic, Asym.Plugin); the cell is the two-period estimator with weights cut to the cell (Asym.Cell) | Asym/Staggered | proved: C259_limit and C259_coverage prove the claim for the standard error before the tolerance; C259_tolerance_violated proves the NaN replacement eventually applies in every such population |
| C260 | Aggregated effects with estimated cohort shares: consistent, with correct limiting coverage | Asym: each cell of C259 is a plug-in functional of sample means (Regular); share-weighted and plain means of regular estimators are regular, so the aggregates of the Agg model are; limit and coverage by the law of large numbers, the central limit theorem and Slutsky | Asym/Aggte | proved: standard error before the NaN tolerance of C259; cells that are not estimated are absent from the table (dropna=True); exact real arithmetic |
| C261 | Overall dynamic, calendar and group effects: consistent, with correct limiting coverage | Asym: each cell of C259 is a plug-in functional of sample means (Regular); share-weighted and plain means of regular estimators are regular, so the aggregates of the Agg model are; limit and coverage by the law of large numbers, the central limit theorem and Slutsky | Asym/Aggte | proved: standard error before the NaN tolerance of C259; exact real arithmetic |
| C262 | Two-period triple differences with regression adjustment: consistent, with correct limiting coverage | Population model `TripleOK` with the triple parallel-trends condition only. Each comparison of `ddd_panel` (subsample, Gram OLS, scattered influence function, n/n_sub factor) is written with moments of the whole sample (`comp_sample`) and put through `plugin` of C258, the three combined by `Regular.fixed` of C259. | Asym/Ddd | proved: est_method=reg, analytic standard errors; an intercept among the covariates is assumed (as the formula interface adds). |
| C263 | Without covariates every two-period method reports the same influence function | For an intercept-only design the fits are weighted means and the score is a constant; the correction terms of each influence function are evaluated in closed form and shown to add up to the influence function of the weighted means. | DR/NoCov | proved: Horvitz-Thompson weighting for repeated cross-sections is not included (its score enters the estimate). |
| C264 | The default estimation method without covariates: consistent, with correct limiting coverage, cells and aggregates | On samples with weight in both arms and the treated share below the trimming level (which occur from some size on with probability one, by the law of large numbers) the doubly robust and weighting estimators and their influence functions equal those of the regression on a constant (C25, C263); the large-sample theorems C258-C261 then carry over. | Asym/NoCov | proved: The logit on a constant is modelled by its exact solution, the treated share. Standard errors without the NaN tolerance of att_gt (C259). |
| C265 | The printed summary of a two-period estimate describes the estimator that ran | the printed header and estimator names are functions of the options the entry points store; the estimation method, the moment choice and the weight-normalisation line are compared with the estimator actually run, over all options | Report/TwoPeriod | proved: The naming of the outcome-regression and doubly robust estimators is truthful (positive); the weighting line of ipwdid and the covariate count are violated and shown by _violated theorems. |
| C266 | Printed triple-difference results describe what was computed | the printed block of the triple-difference results as a function of the result object, compared with the arguments the fit used, over all results | Report/Triple | proved: Truthful for the values and groups printed; the variable names, SE label and simultaneous-band label are violated and shown by _violated theorems; the overflow on an inf-coded never-treated group likewise. |
| C267 | did_multiplegt with bootstrap reports bootstrap inference | Inter/BootReport.lean: the assembly of the result after the analytical and bootstrap parts as a function; SEs against the textbook sample standard deviation, coverage against the Gaussian measure, independence of the replicates by computation | Inter/BootReport | proved: Horizon standard errors and intervals proved; average total effect, tests and printed description are violated and shown by _violated theorems. |
| C268 | An integer random_state makes results reproducible | Boot/Seed.lean: generators come from a world of seeded states and operating-system entropy; calls thread the generator or make a new one as in the code; equality over all worlds by induction over the list of bootstrap calls, violations by explicit tapes with the exact Mammen multipliers | Boot/Seed | proved: Reproducibility proved for att_gt, aggte, dose responses and event-study cells; the remaining parts are violated and shown by _violated theorems. |
| C269 | Repeated cross-sections without covariates: six estimators consistent, with correct limiting coverage | every estimator equals the difference in differences of four means with its influence function (C29, C263); weighted means are regular estimators (law of large numbers, central limit theorem, Slutsky) | Asym/CrossSection | proved: scores of an intercept-only fit are the treated share; statistical large-sample statement about exact arithmetic |
| C270 | The units of the influence function of att_gt are the units whose cohorts and clusters are handed on | AttGt/Bookkeeping.lean: the cross-section branch of the group-time loop with its placeholders, column stacking, influence columns per row or summed by id, the table of units, the reported variance, and the choice of data format; list induction, permutation and sortedness arguments, witnesses for the violated parts | AttGt/BookkeepingProps | proved: positive for distinct ids without allow_unbalanced_panel, exact characterisation with it, violation witnessed |
| C271 | Standard errors of att_gt with panel=False when ids recur | AttGt/Bookkeeping.lean: the cross-section branch of the group-time loop with its placeholders, column stacking, influence columns per row or summed by id, the table of units, the reported variance, and the choice of data format; list induction, permutation and sortedness arguments, witnesses for the violated parts | AttGt/BookkeepingProps | proved: exact factor, exact condition, universal-base error and clustered variance proved; violation witnessed |
| C272 | allow_unbalanced_panel=True with panel=True | AttGt/Bookkeeping.lean: the cross-section branch of the group-time loop with its placeholders, column stacking, influence columns per row or summed by id, the table of units, the reported variance, and the choice of data format; list induction, permutation and sortedness arguments, witnesses for the violated parts | AttGt/BookkeepingProps | proved: balanced case proved equal; for unbalanced panels proved that no estimate is ever returned |
| C273 | Filling the panel of did_multiplegt | Inter/Balance.lean: the panel filler, the drop_missing_preswitch filter, first_obs_by_gp and the cluster read from the flagged row; membership and find? arguments, with clusteredSE of VarModel | Inter/Balance | proved: filled grid, option and balanced case proved; for late entrants proved that the clustered standard error ignores them |
| C274 | What att_gt's sample-size check guarantees | Counting rows of a cohort as units x periods in a balanced panel (Finset product), then unfolding the gate after C17. | Prep/Gate | proved: The statement carries violations: an empty never-treated group passes; panel=False counts rows. Settled by positive theorems for balanced panels and two _violated theorems. |
| C275 | Cohort and balanced aggregation in the continuous-treatment module | Closed forms on the unit x period grid of cells, reusing C102/C225; index arithmetic on the sorted period list. | Cont/PteGroup | proved: Composition is constant for event times 0..b; before treatment it changes (_violated). |
| C276 | Cells and influence columns of the distributed triple difference | cell list and trimmed columns as list programs, closed forms by case analysis on the base-period rule; string options read as the drivers compare them, zero estimates by evaluating the partition statistics on equal outcomes | Dist/DddCells | proved: positive parts proved; violated for always-treated cohorts and two-period designs outside t1<b<=t2 |
| C277 | Undocumented option values are refused | cell list and trimmed columns as list programs, closed forms by case analysis on the base-period rule; string options read as the drivers compare them, zero estimates by evaluating the partition statistics on equal outcomes | Dist/Options | proved: single-machine checks and documented values proved; violated on distributed frames |
| C278 | Two-period triple differences without covariates: all methods agree, consistent, with correct limiting coverage | finite-sample equality of the three methods (weighted means with their influence functions, whatever the constant prediction and matrices), eventual membership in the set of samples where it applies by the law of large numbers, transfer of C262 | Asym/DddNoCov | proved: The logit on a constant returns the treated share (DR.intercept_logit); clipping at 1-1e-6 and trimming are modelled. |
| C279 | Distributed inference: same standard errors and critical values as one machine, except clusters in ddd and missing bands | `Dist/Infer.lean`: `array_split`, per-worker multipliers, the added draws and the report rules of both programs over ℝ; concatenation of the pieces (C44) turns the workers' draws into single-machine draws and back; variances by summing over all multiplier vectors. | Dist/Infer | proved: Standard errors a GMM cell brings along are modelled for ddd, taken as absent for att_gt; generators are arbitrary functions of worker, row count and draw. |
| C280 | Triple differences on repeated cross-sections without covariates: all methods agree, consistent, with correct limiting coverage | `ddd_rc` without covariates: each comparison reduces to the difference in differences of four cell means with its influence function (C29, C263); the three scattered and rescaled comparisons add up to eight cell means; means are regular estimators (C269), combined with fixed signs | Asym/DddRCNoCov | proved: The logit without covariates is modelled by its solution, the treated share of the comparison. |
| C281 | att_gt(panel=False) without covariates, cell by cell: closed form, consistent, with correct limiting coverage | roles and rows of a cell modelled as in `compute_att_gt.py`; each two-period estimator on the rows of the cell equals the difference in differences of four means (C29, C263), rescaled to all rows; means are regular estimators (C269), combined with fixed signs | Asym/CellRC | proved: cells of panel=False data with unique ids (the influence function has one entry per row); allow_unbalanced_panel is a separate case; the means of the arms need not be balanced over periods |
| C282 | aggte of att_gt(panel=False) without covariates: all aggregations consistent, with correct limiting coverage | generic aggregation theorems for any table of regular cells (the arguments of C260 and C261), applied to the cells of C281 | Asym/CellRC | proved: as C281; the aggregation weights are the weights column named "weights" (or none): other names are ignored by aggte, see C38 |
| C283 | ddd with several periods and a never-treated comparison, without covariates, cell by cell: closed form, consistent, with correct limiting coverage | The cell is the composition of Triple models of the three pairwise comparisons restricted to valid units; the exact closed form on good samples is proved by the unweighted no-covariate identities of DR, then the Regular/Inference machinery (strong law, CLT, Slutsky). | Asym/DddMp | proved: Never-treated comparison (one control cohort). The not-yet-treated GMM combination is C78/C208 in samples only. |
| C284 | agg_ddd in large samples: consistent, but its simple, event-time and calendar intervals undercover | The agg_ddd models dSimple, dEvent and dCalendar on a table of cells with regular expansions: the estimate expands with the estimated shares, the influence values without them, and a mixed coverage limit theorem combines the two; orthogonality of the cell influences to the cohort indicators gives the variance decomposition. | Asym/DddAgg | proved: Settled by C284_coverage_violated; limits and variance decomposition hold in general. Analytic standard errors without bootstrap; cells of the never-treated comparison. |
| C285 | agg_ddd in large samples: the intervals of cohort effects and of the overall group effect are exact | composition of the cohort-effect identities of C54 with the share-weighted law of large numbers and delta method | Asym/DddGroup | proved: Cohort effects and the overall group effect of agg_ddd on the tables of C283. |
| C286 | agg_ddd in large samples: the overall event-study and calendar intervals undercover | plain means of the expansions of C284; orthogonality of the influences through the cells and through the shares | Asym/DddOverall | proved: Overall event-study and calendar effects of agg_ddd on the tables of C283; C286_coverage_violated settles the violated part, the other theorems the rest. |
| C287 | agg_ddd's event-time effects are the mean effect over treated units only when the eligible fraction does not vary with the effect | algebra of weighted means on the limits of C284; counterexample population with eligible fractions 1/2 and 3/4 | Asym/DddShares | proved: Event-time effects of agg_ddd on the tables of C283; C287_treated_violated settles the violated part, the other theorems the rest. |

## Disagreements between code and documentation found while modelling

Where a property id is given, the disagreement is proved as a `_violated` theorem about the model.

1. `make_balanced_panel` counts rows, not distinct periods (C02); `is_balanced_panel` ignores duplicates.
2. `diagnose_panel`: the documented meaning of the duplicate count differs from the computed one (C08).
3. `get_group` treats a first-treatment period of 0 as never treated (C09).
4. The early-treatment filter can remove the first period (C16); a universal base period is then `None` (TypeError).
5. `wide_to_panel` stubs that are prefixes of one another are ambiguous (C11).
6. In-cell recomputation of DDD subgroups differs from the preprocessing table for eligibility codes other than 0/1 (C12).
7. att_gt aggregation looks the sampling weights up under the literal name `weights` (C38).
8. `max_e` of simple/group aggregation counts recoded periods, not calendar units (C34; same in DDD).
9. `balance_e` does not keep the composition constant with gaps in the calendar (C35).
10. Cohorts without post-treatment cells enter the overall group effect as 0 (C37; DDD C54); simple aggregation without post cells returns 0 (C76).
11. With a universal base, cells that fail are reported as ATT = 0 (C71).
12. `parallel_map`: which exception is raised depends on the schedule.
13. RC doubly robust influence functions have a pre-period sign error; the improved RC estimators omit the regression error, and Horvitz–Thompson RC influence values are off by (w-1)·ATT with unequal weights (C72).
14. `reg_did_panel` returns 0 in a degenerate case where the others refuse (C74).
15. Compiled cluster sums misplace negative integer ids (C41); cluster bootstrap averages cluster *means* (C77).
16. Distributed IRLS/WLS with only empty partitions raises TypeError (dask); distributed propensity scores are clipped at 1e-10, local ones at 1e-6 (C46).
17. `ddd_mp` influence columns are indexed by attempt, not by estimate (C51); GMM standard errors are too small (C78); aggregation omits the share influence (C79); `ddd()` with more than two periods ignores weights (C80); `agg_ddd` bootstrap ignores clusters; `ddd()` with two periods ignores `cluster`.
18. `did_multiplegt`: effect not signed for decreasing switchers (C58); shifts count rows, not calendar periods (C57); a missing treatment hides a switch (C55); never-switchers required in each period (C81); `same_switchers` masks (C82); signed normaliser with crossing (C83); F_g = 0 confused with never (C84); ATE denominator (C86); bootstrap duplicates unit ids (C87); linear trends not cumulated if a horizon is NaN (C88); placebo availability (C59).
19. Honest DiD: rm search misses the first pre-period difference, rmb/rmm use the first post difference (C62, C63); identified set reported as a point when the restriction is infeasible (C63); compiled helpers disagree (C64); the bound on M uses signed differences and omits the reference period (C89).
20. Spline objects return stale knot sequences after some histories (C66), construction from df without data inside the boundary (C67), wrong column count when extended (C90).
21. Sieve bases: `basis_dimension` differs from the matrix for glp (C68) and from the compiled version (C91); the band uses one more segment than the estimator, the Lepski step lacks the constant (C92); additive derivatives keep the levels of other variables (C93); extrapolation divides every Taylor term by the same factorial (C94); `x_min=0` is ignored; the `tensor_prod` fallback has a different arity.
22. Validation: NaN/text weights pass; a missing id/cohort/period column raises ColumnNotFound instead of a report; two-period and ddd entry points accept duplicate rows; did_multiplegt counts a missing treatment as a change (C69). Two-period ddd misaligns pre and post rows with misdated rows (C96); the minimum subgroup size check skips empty subgroups (C97).
23. cont_did: only the period column is renumbered (C70); with a universal base treated units serve as comparisons (C98); ACRT influence too small by treated/cell units (C100); the overall ATT uses the ACRT influence (C101); failed cells dilute the overall effect (C103); the weight influence is multiplied by the treated share (C104); the event-study level is dose weighted (C105); influence placement relies on `unique()` order (C106); `setup_pte` drops the first cohort (C108); the curve influence misaligns units with zero influence (C109).
24. Two-period bootstrap: traditional DR replicates use odds-weighted outcome regressions while the estimator uses plain ones, so unit draws do not reproduce the estimate (C112); improved replicates trim differently (C111); Horvitz–Thompson RC replicates are not renormalised (C113); the TWFE weighted bootstrap gives the two rows of a unit the draws of different units (C117); the analytic TWFE standard error changes when a unit constant is added (C115).
25. Calibrated scores: the fallback objective ignores sampling weights in its linear term (C120); the weighted quantile is not a quantile and depends on the order of tied rows (C121); quantile constraints use indices of the pivoted columns after collinear columns are dropped (C122).
26. Distributed att_gt: anticipation ignored in the choice of comparisons and `inf`-coded never-treated units dropped (C124); a failed cell shifts the columns of later cells (C125); cross-section influence values are stored by position (C126); an empty first Dask partition drops the cell (C127); covariates of the wrong period (C128); inner joins over all periods of a cohort (C130).
27. Bootstrap reporting: absolute tolerance blanks standard errors in small units (C131); one cell with equal quartiles removes the simultaneous critical value of all (C133); bands may be narrower than pointwise intervals (C134); GMM cells of the multi-period triple difference ignore bootstrap and clusters (C135); the Wald pre-test includes the anticipation window (C136).
28. did_multiplegt inference: the variance drops rows by absolute period number, so periods numbered 0 or lower give wrong or zero standard errors (C137); switchers count as one more cluster of the controls (C140); the joint tests use another, unclustered variance (C141); negative normalised standard errors (C142); the average total effect ignores clusters, and trends_lin reports it although it says not (C143); placebos are adjusted with the covariate change of the effect (C144); covariate regressions have no period effects (C145); the first-stage term is a constant (C146).
29. C148: `ddd_rc` with `est_method="dr"` reports influence values (hence standard errors) that are not those of its estimate: `nuisance_rc.py:593-604` adds the pre-period regression correction where the derivative subtracts it (same sign slip as `drdid_rc`).
30. Fixed-length intervals: for post-treatment weights with sum_k k*l_k < 0 (differences such as (1,-1)) the bias bound is too large by 2M|sum_k k*l_k| and the interval is not the mirror image of that for the negated weights (C149); if the numerical minimal standard deviation exceeds the one of get_min_bias_h (equal with one pre-period), the search loop cannot end (C154).
31. `test_in_identified_set` (`arp_no_nuisance.py:335-352`) compares the moment `A_B y - d_B` with truncation points and a critical value of `A_B y`. With `d > 0` (smoothness restrictions) this over-rejects: at least 67% instead of `alpha` in C160. The conditional test of `conditional.py` and the LF hybrid, which do not have the early `max_moment < v_lo` exit, keep their level. With one post-period: `compute_conditional_cs_rm` always raises (`accept_grid[:, 0]` of a one-dimensional array, `rm.py:725`); the default FLCI hybrid of `sd`/`sdb` always raises (weights sliced to the post-period, `sd.py:429`, `sdb.py:456`); `sdb` with LF and `sdrm`/`sdrmm`/`sdrmb` with FLCI do not pass the arguments the test needs; the default LF/ARP grid of `sd` is centred at 0 instead of the estimate (`sd.py:447-459`).
32. lp_conditional_test(x_t=None) compares a maximum of several moments with the quantile of a single normal (C170); the default grid of compute_arp_nuisance_ci is centred at zero, effects beyond 20 standard errors are never covered (C171); its binary search misreports non-contiguous acceptance regions (C163).
33. Sensitivity tables (C172, C174, C175, C177): `honest_did` accepts a gap next to the reference period; `monotonicity_direction="Increasing"` with FLCI is silently ignored and labelled `DeltaSDD`; `create_sensitivity_results_sm` without `m_vec` raises for exactly two pre-periods and yields negative M for concave pre-trends; `create_sensitivity_results_rm` ignores a single grid limit; the default grids of `compute_conditional_cs_sd` (centred at 0) and of the linear-trend table (built under parallel trends) need not contain the effect.
34. Distributed triple differences: on repeated cross-sections `reg` computes a different estimator from the single-machine code (C179_reg_violated); with `ipw` a fully trimmed comparison is reported as the treated units' own change instead of an error (C178_trimmed_violated).
35. Distributed ddd: not-yet-treated controls on repeated cross-sections always raise in the usual designs (C180); on Dask a comparison cohort is dropped or the call fails depending on the placement of rows (C181); never-treated units coded as infinity are not compared (C182); units of a cell in no comparison inflate the standard error (C183).
36. Distributed did_multiplegt: switchers without a control dilute the effect instead of being dropped (C184), a missing dose makes normalised effects missing (C185), the baseline filters run per worker so the kept rows depend on hashing (C189), and horizons are limited by each worker's own last period (C190).
37. Distributed did_multiplegt with covariates: no minimum number of rows for the regression, units counted after dropping missing covariates (C191), and the covariate part of the influence values goes to switchers only (C193).
38. predict_het: date and direction dummies are not interacted, so a common shock is attributed to covariates when switchers go both ways (C195); with trends_lin the outcome is differenced twice, so constant effects vanish after horizon 1, and first-row weights can silence a unit (C196).
39. Distributed cont_did: zero-dose cohort members become comparison units (C197); Dask task names contain only cohort and period, so results of another data set can be returned (C198); event studies compare outcome levels instead of changes because d_outcome is not passed to workers (C199).
40. C200/C202/C204/C206/C207: data-driven NPIV: full grid for weak instruments, failed pair selects the smallest sieve with infinite band, default band covers 94 of 99 draws, zero bounds ignored, wrong variance in the regression case
41. ddd(): cluster is ignored on two-period data (documented as supported only there), allow_unbalanced_panel=False never raises, coding never-treated units as infinity changes the estimator with two periods and two cohorts, no check that the treated cohort is treated between the two periods (C208-C211).
42. `drdid(panel=False)` with the default `est_method="imp"` runs the not locally efficient estimator (3.3), although the Notes say (3.4) (C220); `ordid` reports ATT 0 if no treated unit is observed in both periods (C221); two-period panels adjust for the covariates of the post-treatment row (C222).
43. C223: identified sets under RM restrictions drop the first pre-period difference (range starts at -(p-2)), SDRM variants always include the point estimate
44. C224-C230 (pte_default): unit merged into another cohort when its treatment date is unobserved (C224); labels not translated back for periods 2..T (C225); overall effect depends on boot_type (C226); overall SE has divisor B, slope SEs are 0 and first cohort never estimated in replicates (C228); quantile grids truncate (C229, C230).
45. att_gt clustervars=[idname, v]: every unit becomes its own cluster so v is ignored; aggte never clusters (C231).
46. `cont_did(dose_est_method="cck")`: standard errors and bands of ATT(d) ignore the sampling error of the untreated mean (C233); with `cband=True` the bands are always 95% (npiv is called without alpha, C234). `aggte` without `alp` after `att_gt(alp=a)` prints 95% over intervals with level 1-a, and the overall interval is 95%; simultaneous bands without bootstrap standard errors are labelled pointwise (C235). Sensitivity plots with one parameter value put the original interval at 0 (C236).
47. C238: FLCI hybrid of compute_conditional_cs_sdrm passes m_bar (relative) as absolute smoothness bound; coverage not controlled (sdrm.py:481-499).
48. C242: gen_did_scalable violates parallel trends (index_pt_violation is kept in a two-way design), so att_config is not what any DiD estimator recovers. C243: prob_g2_p1/prob_g3_p1 are not proportions. C244: num_groups other than num_time_periods raises; D is positive before treatment.
49. bin_factor with a dict on text cuts new names at the width of the longest value, merging bins whose names share a prefix (didhonest/utils.py:405-421); create_interactions silently ignores a reference level that does not occur (utils.py:221-226).
50. C247: with bootstrap standard errors the printed two-period and triple-difference stars use the bootstrap critical value while the p-value uses the normal distribution, so they can contradict each other; a bootstrap without a positive standard error returns the interval (att, att), so every nonzero estimate is starred while no p-value is printed.
51. With repeated cross-sections, `reg_did_rc` and `drdid_trad_rc` need the treated to have the same covariate means in both periods even when the outcome models are correct; otherwise they report an effect where there is none (C256). `drdid_rc` does not.
52. C259: att_gt and aggte replace every standard error not above sqrt(eps)*10 (about 1.5e-7) by NaN (att_gt.py:394, compute_aggte.py:896): an absolute tolerance, so inference depends on the unit of measurement of the outcome and vanishes for large enough samples.
53. C265/C266: ipwdid always stores normalized=True, so its default Horvitz-Thompson estimator is printed as Hajek-type (drdid/ipwdid.py:298, drdid/format.py:169-171); the printed covariate count is the number of columns minus four; two-period ddd prints y/partition as variable names, multi-period ddd prints Analytical standard errors regardless of bootstrap, agg_ddd labels the pointwise fallback Simult., and a multi-period ddd result with inf-coded never-treated units cannot be printed (didtriple/format.py:186-192).
54. C267: did_multiplegt(boot=True) computes bootstrap replicates of the average total effect but never uses them; the average effect, the equality test and the joint placebo test stay analytical, and the summary prints "Standard errors: Analytical"; covariates are looked up under a key that does not exist and never printed (didinter/compute_did_multiplegt.py:96-112, didinter/format.py:108-122).
55. C268: cont_did(aggregation="eventstudy", random_state=k) is not reproducible: aggregate_att_gt calls the bootstrap without a seed (process_aggte.py:116, 131, 241-277, 461), and so is the overall standard error of dose_est_method="cck"; att_gt with clustervars=[idname, v] numbers clusters in the arbitrary order of unique() (att_gt.py:421-424).
56. att_gt outside balanced panels: with allow_unbalanced_panel=True and panel=False influence values are ordered by id but cohorts and clusters by (period, cohort, id), so aggregate and clustered standard errors use mismatched units; with panel=False and recurring ids the reported standard errors are inflated by n/id_count; with panel=True and allow_unbalanced_panel=True a truly unbalanced panel always raises TypeError (no outcome tensor).
57. did_multiplegt with cluster on a panel with late entrants: the balancing step does not carry the cluster to added rows and the standard error reads it from the first-period row, so units entering after the first period are silently left out of the clustered standard error (C273).
58. att_gt(control_group="nevertreated") accepts data whose never-treated units were all dropped by the panel balancer (C274).
59. Distributed att_gt accepts any base_period string; every value other than "varying"/"universal" makes each cell use its own period as base, so all estimates are 0 (C277). Distributed ddd shifts influence columns by one cohort when an always-treated cohort is present (C276).
60. The distributed `ddd` (Dask and Spark) accepts `cluster`, stores it in the result and never uses it: standard errors and bands are those for independent units (C279). The distributed `att_gt` replaces a missing simultaneous critical value by the pointwise normal quantile, the single-machine one reports NaN.
61. C284: agg_ddd (compute_agg_ddd.py:211-234, 341-347, 440-446) omits the estimated cohort shares from the influence functions of its simple, event-time and calendar effects; their pointwise intervals cover less than 1-alpha in large samples whenever the effects differ between the cohorts.
