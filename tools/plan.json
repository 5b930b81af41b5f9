[[1,3,"panels are lists of rows; balancing and completion as filters on unit counts; list induction"],
[4,6,"predicates over the product of units and periods; counting over deduplicated lists"],
[7,8,"deduplication and diagnosis as list functions; induction"],
[9,10,"per-unit lists; induction"],
[11,11,"wide/long conversion as lookups; prefix counterexample"],
[12,12,"subgroup codes; case analysis"],
[13,17,"transformers as list functions over rows with cohorts in WithTop; induction, permutation lemmas"],
[18,18,"sort and slice into tensors; sorted permutations of a product"],
[19,20,"cohort table with cumulative offsets; list slices, sort-key lemmas"],
[21,24,"att_gt loop and base periods; induction on the period list; futures as permutations of completions"],
[25,30,"weighted-sum formulas; nuisance fits as hypotheses (normal/score equations); algebra"],
[31,38,"selection of cells, cohort-share weights, recoding as order isomorphism, weight influence; finite sums"],
[39,42,"two-point law, bootstrap draws, cluster sums, quantiles; algebra, finite sums"],
[43,48,"Gram matrices over row lists, blocks, reduction trees, IRLS as iterated map; list and permutation sums"],
[49,50,"estimators as three comparisons; algebra and calculus of influence functions"],
[51,54,"cell loop, comparison sets, GMM weights, aggregation; induction, Cauchy-Schwarz"],
[55,56,"treatment paths as lists; induction over the path"],
[57,59,"horizon effects as finite sums over a frame; rearrangement of sums"],
[60,64,"constraint rows as functions of the trend; identified sets as images of polyhedra; linear algebra"],
[65,65,"programs of nested context managers with an interpreter; structural induction"],
[66,67,"spline object as a state machine; invariants over every history of calls"],
[68,68,"column counts of products of bases; induction over the list of regressors"],
[69,69,"validators as functions to lists of errors; exact acceptance conditions"],
[70,70,"ContDID pipeline as composition of list functions; exact cell characterisation"],
[71,71,"att_gt assembly with failed cells; case analysis"],
[72,72,"derivative of the refitted estimator with respect to an observation weight (infinitesimal jackknife); calculus over the reals"],
[73,74,"influence and degenerate cases of the cell loop and estimators; algebra"],
[75,76,"derivative of cohort shares; empty selections"],
[77,77,"cluster means versus sums; variance algebra"],
[78,80,"GMM variance, aggregation influence, entry point; derivatives and counterexamples"],
[81,88,"options of did_multiplegt as filters and masks on the frame; finite sums and concrete frames"],
[89,89,"bound on second differences; exact maximum characterisation"],
[90,90,"column count of extended spline objects; algebra on lengths"],
[91,94,"compiled dimension, sieves of the three procedures, derivative masks, extrapolation rule; induction and algebra"],
[95,97,"two-period builders as list functions; sorting and alignment lemmas"],
[98,98,"two-by-two subset and first difference on sorted frames; list induction"],
[99,101,"regression with abstract basis; normal equations; derivative of the refitted cell estimate"],
[102,105,"overall weights, combination of cells, weight influence, event-study level; finite sums and derivatives"],
[106,108,"placement of influence values, block bootstrap, setup_pte; list induction"],
[109,109,"curve influence; alignment of lists and derivative over the reals"],
[110,113,"bootstrap replicates versus refits; scale invariance of the fitting equations; algebra of weighted sums"],
[114,116,"normal equations of the stacked design; linear algebra over finite sums"],
[117,117,"index algebra of tile and repeat; list induction"],
[118,120,"objective functions over the reals; directional derivatives, tangent inequalities, first-order conditions as balance"],
[121,122,"cumulated weights and insertion point on lists; pivot order as a parameter"],
[123,124,"list induction over cells; comparison with the single-machine plan and roles"],
[125,127,"positions in sorted lists; folds of row updates in any order of completion"],
[128,130,"minimum of the joined periods; any generalized inverse of a constant covariance"],
[131, 133, "order statistics characterised by counting; linear interpolation; folds of maxima"],
[134, 136, "case analysis of the reporting rules; linearity of the draws; quadratic form as a sum of squares"],
[137, 139, "the masks and counts depend on the outcome only through missingness; residuals of rows with a weight are centred; renumbering commutes with every definition"],
[140, 143, "sums over images; algebra of the sample covariance; sign analysis; concrete counterexamples"],
[144, 147, "uniqueness of the regression coefficients; the in-bracket sum vanishes; adjointness of the contrast matrix"],
[148, 148, "chain rule through the three comparisons, their factors and the weight normalisation; the two-period derivative theorems (C72); exact solvers on concrete designs"],
[149, 151, "two summations by parts turn the bias into a sum over second differences; explicit extremal path; tight stacked variables; unbounded bias along trends"],
[152, 152, "distribution function of the Gaussian measure of Mathlib; intermediate value theorem; comparison of shifted densities"],
[153, 153, "law of the linear combination; monotonicity of P(|N(b,s^2)| <= c) in |b| and s; convexity argument for the binding constraint"],
[154, 154, "loop invariant with the golden-ratio identity; geometric shrinkage; negative tolerance"],
[155, 155, "Truncated-normal quantile via the normal cdf (Honest/Trunc.lean)"],
[156, 156, "argmax and truncation points for both versions of compute_bounds; decomposition into statistic and residual (Honest/ArpCond.lean)"],
[157, 160, "Gaussian coefficients as laws of all linear combinations; independence of statistic and residual, monotone likelihood ratio of truncated normals, sum over the selection events (Honest/ArpSection, ArpIndep, ArpCore, ArpSize); the violation by an explicit covariance matrix and Chebyshev (ArpViol)"],
[161, 162, "compute_arp_ci as a grid search, hull of accepted points, coverage from the size theorems; union over pieces through C62 (Honest/ArpCI, ArpCIProps)"],
[163, 163, "the binary search modelled with its loops; invariants by well-founded induction; counterexamples evaluated"],
[164, 164, "the matrix with its determinant (Laplace expansion) and inverse; equivalence of the tested null and the English null"],
[165, 168, "lp_conditional_test modelled branch by branch (solver and bisection as parameters with stated correctness); primal truncation points shown to be exact ends of the optimality region of the basis, then the conditional normal argument over finitely many dual vertices"],
[169, 169, "affine image of the normal coefficients, C164 and C166-C168, search C163"],
[170, 170, "union bound and product measure"],
[171, 171, "grid algebra and telescoping sums"],
[172, 172, "Model of honest_did._honest_did_aggte as a list program; filter/erase lemmas for ascending event times"],
[173, 173, "Normal law of a linear combination (cover_eq), monotonicity of the folded normal in the bias"],
[174, 175, "Model of both table functions and of the dispatch; induction over the list of values; head and last of the filtered grid"],
[176, 176, "Bijection between coefficient positions and event times; composition of C172 and C153"],
[177, 177, "Bounds of a summarised set lie in the grid range; identified set at Mbar=0 via C62; normal tail"],
[178, 179, "Ddd.lean, DddRC.lean: reduce each comparison of the distributed cell to the difference-in-differences cell theorems (C46, CellRC) by reindexing the filtered rows"],
[180, 183, "DddDriver.lean, DddMulti.lean: the distributed ddd driver (cells, controls, placement, scatter of influence values) and the combination of comparison cohorts, compared with Triple.Multi"],
[184, 190, "Inter/Dist.lean, DistVar.lean, DistFilter.lean: group sums and scalars merged over an arbitrary list of partitions equal sums over the whole frame (induction over the merge), then reduce to the single-machine Horizon/VarModel theorems; filters and horizon counts are compared set-theoretically"],
[191, 193, "Inter/DistControls.lean: tree_reduce evaluates some binary tree over its inputs; additive statistics of the merged dictionaries are sums over all rows; then compare with ControlsModel (C144-C146)"],
[194, 196, "Units are lists of rows; the sample is compared with a first-order description of the observed outcomes; the regression is any solution of the weighted normal equations with the dummy columns the code builds, uniqueness from a positive quadratic form, dummies shown to span every function of their variable. Inter/Het.lean"],
[197, 199, "Partition-wise preprocessing composed with the existing model of the single-machine pipeline (equality by permutation arguments), inferred cohorts as minima over partitions, completion orders as permutations of a keyed result list, scheduler memory as a partial function of task names, event-study levels through the existing cell estimator. Cont/Dist.lean"],
[200, 202, "Grid scan and Lepski rule over arbitrary comparison outcomes (failed ones infinite), extended non-negative reals; induction on the scan; first-match characterisation."],
[203, 204, "Fits as matrices independent of the outcome; variance algebra; expectations as Bochner integrals; order statistics of the draws."],
[205, 205, "Matrix algebra with the Penrose conditions for the generalized inverse."],
[206, 207, "Case analysis of the options; column counts of the sieves."],
[208, 211, "The dispatch of ddd() over its options and a list of rows with estimators as parameters (Triple/Entry); exact characterisations of when routes and codes differ, counterexamples run through the model."],
[212, 214, "ddd_mp_rc on the rows of Triple/Multi with row numbers as units (Triple/MultiRC); influence bookkeeping as in C53, standard errors by reduction to C78, agreement of the group-time with the two-period routes by computing the single cell."],
[215, 215, "The interval block after the draws with numpy percentiles (Boot/Interval); positive homogeneity of percentiles makes the standard error cancel."],
[216, 222, "the three two-period functions from data frame to estimate: option checks, validators, null handling, weight normalisation, balancing, array building and the estimators of C25-C30/C110; frame-level sums computed by list/Finset reindexing"],
[223, 223, "One definition covers the six functions; the stacked rows are those of the code, the two linear programs of each reference and sign are given by any exact solver. The s=0 programs are shown to be unbounded, infeasible or trivial, so they contribute exactly the point estimate; the remaining references are matched with the specification of Rambachan and Roth."],
[224, 230, "Cont/Pte*: recoding, two-by-two cells, labels, aggregation with both bootstraps, replicate bookkeeping and quantile mixtures modelled on lists of rows and cells; counting and order arguments, a loop invariant for the binary search"],
[231, 231, "Boot/ClusterOpts.lean: labels of att_gt/aggte composed with the draw-variance theorems of C77; the violations are proved for all panels."],
[232, 232, "C232: the six confidence-set functions for several post-periods as unions over (reference difference, sign) of the conditional test with nuisance parameters (C169); Farkas lemma (Fourier-Motzkin) gives existence of exact basic solvers"],
[233, 234, "Model of the cck branch over the npiv fit (basis matrix, evaluation matrix, coefficient map); linear algebra for invariance, recovery, and cancellation of influence values; bands as functions of the level argument."],
[235, 236, "Model of the parameter dictionary, critical values, labels and rows of the printed tables and of the plot converters; coverage through the normal quantile lemmas; list induction."],
[237, 238, "search for truncation points as iteration with fuel = iteration limit, distance bounds from concavity of the value; FLCI stage as linear functional, kinked violations"],
[239, 244, "generators as deterministic functions of covariates, a uniform draw and noise; interval lengths for assignment, integrals over mean-zero noise for outcomes"],
[245, 246, "Exact finite-list model of bin_factor and create_interactions (`Honest/Factor.lean`): levels as strictly increasing lists, groupings by index arithmetic, columns as lists."],
[247, 248, "model the printed p-value, the intervals and the star over the reals with the standard normal distribution function; the bounds 0.975 < Phi(1.96) < 0.97501 are proved by integrating the alternating series of exp(-t^2/2) (Report/Normal.lean, Report/PValue.lean)"],
[249, 251, "random outcomes over a probability space, expectation of the modelled estimator computed in closed form from the assumptions"],
[252, 252, "Gaussian moments and moment generating function from Mathlib, independence for the cross terms"],
[253, 253, "expectation of each comparison by unbiasedness of least squares, combined by the triple-difference assumption"],
[254, 254, "influence values computed in closed form; second moments of arm sums under uncorrelatedness"],
[255, 257, "the design and the covariates are fixed, outcomes are random variables on an arbitrary probability space; expectation is taken through the modelled estimators (exact linearity of each in the outcomes), using the normal equations of the fits only"],
[258, 258, "Large-sample theory in Lean: strong law (Mathlib), central limit theorem (Mathlib), Slutsky for combinations of sample means with converging coefficients; the estimator and its influence function are rewritten exactly as such combinations on samples with full rank, and the events where they are undefined vanish; the interval is the reported one, att ± 1.96 se with the code standard error."],
[259, 259, "strong law and central limit theorem applied to the estimator as a function of sample moments (Asym.Basic, Asym.Plugin); the cell is the two-period estimator with weights cut to the cell (Asym.Cell)"],
[260, 261, "Asym: each cell of C259 is a plug-in functional of sample means (Regular); share-weighted and plain means of regular estimators are regular, so the aggregates of the Agg model are; limit and coverage by the law of large numbers, the central limit theorem and Slutsky"],
[262, 262, "Population model `TripleOK` with the triple parallel-trends condition only. Each comparison of `ddd_panel` (subsample, Gram OLS, scattered influence function, n/n_sub factor) is written with moments of the whole sample (`comp_sample`) and put through `plugin` of C258, the three combined by `Regular.fixed` of C259."],
[263, 263, "For an intercept-only design the fits are weighted means and the score is a constant; the correction terms of each influence function are evaluated in closed form and shown to add up to the influence function of the weighted means."],
[264, 264, "On samples with weight in both arms and the treated share below the trimming level (which occur from some size on with probability one, by the law of large numbers) the doubly robust and weighting estimators and their influence functions equal those of the regression on a constant (C25, C263); the large-sample theorems C258-C261 then carry over."],
[265, 265, "the printed header and estimator names are functions of the options the entry points store; the estimation method, the moment choice and the weight-normalisation line are compared with the estimator actually run, over all options"],
[266, 266, "the printed block of the triple-difference results as a function of the result object, compared with the arguments the fit used, over all results"],
[267, 267, "Inter/BootReport.lean: the assembly of the result after the analytical and bootstrap parts as a function; SEs against the textbook sample standard deviation, coverage against the Gaussian measure, independence of the replicates by computation"],
[268, 268, "Boot/Seed.lean: generators come from a world of seeded states and operating-system entropy; calls thread the generator or make a new one as in the code; equality over all worlds by induction over the list of bootstrap calls, violations by explicit tapes with the exact Mammen multipliers"],
[269, 269, "every estimator equals the difference in differences of four means with its influence function (C29, C263); weighted means are regular estimators (law of large numbers, central limit theorem, Slutsky)"],
[270, 272, "AttGt/Bookkeeping.lean: the cross-section branch of the group-time loop with its placeholders, column stacking, influence columns per row or summed by id, the table of units, the reported variance, and the choice of data format; list induction, permutation and sortedness arguments, witnesses for the violated parts"],
[273, 273, "Inter/Balance.lean: the panel filler, the drop_missing_preswitch filter, first_obs_by_gp and the cluster read from the flagged row; membership and find? arguments, with clusteredSE of VarModel"],
[274, 274, "Counting rows of a cohort as units x periods in a balanced panel (Finset product), then unfolding the gate after C17."],
[275, 275, "Closed forms on the unit x period grid of cells, reusing C102/C225; index arithmetic on the sorted period list."],
[276, 277, "cell list and trimmed columns as list programs, closed forms by case analysis on the base-period rule; string options read as the drivers compare them, zero estimates by evaluating the partition statistics on equal outcomes"],
[278, 278, "finite-sample equality of the three methods (weighted means with their influence functions, whatever the constant prediction and matrices), eventual membership in the set of samples where it applies by the law of large numbers, transfer of C262"],
[279, 279, "`Dist/Infer.lean`: `array_split`, per-worker multipliers, the added draws and the report rules of both programs over ℝ; concatenation of the pieces (C44) turns the workers' draws into single-machine draws and back; variances by summing over all multiplier vectors."],
[280, 280, "`ddd_rc` without covariates: each comparison reduces to the difference in differences of four cell means with its influence function (C29, C263); the three scattered and rescaled comparisons add up to eight cell means; means are regular estimators (C269), combined with fixed signs"],
[281, 281, "roles and rows of a cell modelled as in `compute_att_gt.py`; each two-period estimator on the rows of the cell equals the difference in differences of four means (C29, C263), rescaled to all rows; means are regular estimators (C269), combined with fixed signs"],
[282, 282, "generic aggregation theorems for any table of regular cells (the arguments of C260 and C261), applied to the cells of C281"],
[283, 283, "The cell is the composition of Triple models of the three pairwise comparisons restricted to valid units; the exact closed form on good samples is proved by the unweighted no-covariate identities of DR, then the Regular/Inference machinery (strong law, CLT, Slutsky)."],
[284, 284, "The agg_ddd models dSimple, dEvent and dCalendar on a table of cells with regular expansions: the estimate expands with the estimated shares, the influence values without them, and a mixed coverage limit theorem combines the two; orthogonality of the cell influences to the cohort indicators gives the variance decomposition."],
[285, 285, "composition of the cohort-effect identities of C54 with the share-weighted law of large numbers and delta method"],
[286, 286, "plain means of the expansions of C284; orthogonality of the influences through the cells and through the shares"],
[287, 287, "algebra of weighted means on the limits of C284; counterexample population with eligible fractions 1/2 and 3/4"]]
