# Formal model of moderndid in Lean 4 — design

The repository (`/repo`, python) is read as text and never run. The model is a set of total Lean
functions that mirror the Python functions branch by branch; every definition cites file and lines.
Properties are in `properties.jsonl`, their status in `MANIFEST.json`. This file is generated by
`tools/design.py` from `tools/design_head.md`, `tools/findings.md` and the manifest.

## Trusted base

* Lean 4.33.0 kernel; the axioms `propext`, `Classical.choice`, `Quot.sound` only. No own axioms,
  no compiled-evaluation tactics.
* My reading of the Python source, and the documented behaviour of the libraries it calls
  (polars `unique/group_by/filter/join/sort/n_unique/over/shift`, numpy indexing, `concurrent.futures`,
  `contextvars`). These are modelled by the list/function operations named in the model comments.
* **Arithmetic is exact** (a linear ordered field, `ℚ` or `ℝ`), not IEEE-754. Rounding, overflow, NaN
  propagation and `inf` arithmetic are outside the model except where an explicit `Option`/`WithTop`
  value models NaN/None/inf.
* Linear solves, inverses, linear programs, GLM fits are parameters characterised by the equations they
  solve (normal equations, score equations, feasibility + optimality); their numerical failure modes
  are not modelled.
* Random number generators are not modelled: a bootstrap statement is about given draws, or about the
  exact two-point law.

## How statements are made

* `Verif/<Area>/Model.lean` – definitions with citations; `Spec.lean` – small independent specifications;
  `Lemmas.lean` – helper lemmas; other files – property theorems, each followed by a non-vacuity `example`
  on a concrete, non-trivial instance of its hypotheses.
* Theorem `Cnn_...` belongs to property `Cnn`. `Cnn_..._violated` is a proved negation for the unchanged
  code: either for every input of a class, or with a concrete witness. A property whose English statement
  contains "(Violated …)" is settled by a pair of theorems: what holds, and what fails.
  `_partial` marks a theorem that proves only part of its property; what is missing is in the manifest note.
* Universally quantified statements are proved by induction, invariants, algebra or calculus. Concrete
  evaluation (`decide +kernel`) occurs only in non-vacuity examples and in counterexamples.

## Testing the theorems against wrong programs

`tools/mutate.py` applies one edit to the model (a wrong boundary, a swapped argument, a dropped update, …)
in a scratch copy, rebuilds, and records in `seeded/LOG.jsonl` which theorems stop proving; the edits are
`seeded/mutants*.json`. A theorem counts as failing only if its own proof breaks, not if it merely
depends on a broken file. An edit that falsifies an English claim but breaks no theorem led to a new or
stronger theorem (`theorems_tightened` in the log), after which the edit was run again.

## What is modelled, area by area

| area (`lean/Verif/…`) | code | not modelled |
|---|---|---|
| Panel | `core/panel.py`, `core/preprocess/utils.py`: balancing, gaps, duplicates, wide/long, groups, first differences, subgroups | dtype conversion, plotting helpers, messages |
| Prep | `core/preprocess/{transformers,builders,tensors,models}.py`, did pipeline, tensors, cohort tables | formula parsing; design matrices as given columns |
| AttGt | `did/{att_gt,compute_att_gt}.py`: cells, base periods, comparison sets, influence matrix, parallel map | string labels, warnings |
| DR | `drdid/estimators/*.py`: eight estimators (panel/RC; DR, improved, traditional, IPW, REG) and their influence functions | fitting algorithms (equations assumed), sandwich numerics |
| DR (Refit, Twfe) | `drdid/bootstrap/*.py` weighted and multiplier bootstrap replicates, `drdid/estimators/twfe_did_{panel,rc}.py` | random draws (arbitrary vectors) |
| DR (Tilt, Quant) | `drdid/propensity/pscore_ipt.py` objectives, balance, weighted quantile, quantile constraints | optimisers, QR decomposition |
| Agg | `did/{aggte,compute_aggte}.py` | printing, critical values (see Boot) |
| Boot | `did/mboot.py`, compiled cluster sums, quantile-based standard errors and critical values | random generator |
| Dist | `distributed/_{gram,did_partition,regression,utils}.py`, dask/spark drivers as reduction trees; `dask/_did_mp.py` cell enumeration, unit selection, storage of influence values | schedulers, serialisation, GPU |
| Triple | `didtriple/estimators/{ddd_panel,ddd_rc,ddd_mp}.py`, `compute_agg_ddd.py`, `ddd.py` | ddd_mp_rc, bootstrap |
| Inter | `didinter/*.py`: switch detection, horizons, placebos, options, normalisation, ATE, bootstrap sample, influence values and standard errors, clusters, covariates (`controls.py`), equality test | `_compute_heterogeneity`, p-values, `variance_ehat.py` (unused) |
| Honest | `didhonest/delta/*`, `numba.py`, bounds, identified sets (sd, sdb, sdm, rm, sdrm) | FLCI/ARP confidence sets, LP solver |
| Infra | `cupy/backend.py`, `core/parallel.py` | cupy itself |
| Spline | `didcont/spline/*.py` objects as state machines | B-spline values (scipy) |
| Npiv | `didcont/npiv/{prodspline,gsl_bspline,…}.py`, `didcont/utils.py`, `didcont/numba.py`: columns, dimensions, derivative masks, extrapolation rule | TSLS fits, critical values |
| Valid | `core/preprocess/validators.py`, two-period and ddd builders | text of messages |
| Cont | `didcont/cont_did.py`, `didcont/estimation/{process_panel,process_dose,process_aggte,bootstrap}.py`, ContDID pipeline | CCK estimator, knots of the dose basis |

