import Mathlib.Analysis.SpecialFunctions.Exp
import Mathlib.Analysis.SpecialFunctions.Log.Basic
import Mathlib.Analysis.SpecialFunctions.Pow.Real
import Mathlib.Algebra.BigOperators.Fin
import Mathlib.Algebra.Order.BigOperators.Group.List

/-!
# Data generators: `moderndid/didtriple/dgp.py`, `moderndid/core/data.py`

A unit is described by its raw covariates `x`, its uniform draw `u` and its noise draws; the generator is a deterministic function of these.
Real numbers instead of floats.  The random number generator itself is not modelled.
-/

set_option linter.unusedSectionVars false
set_option linter.unusedSimpArgs false

namespace Verif.Sim

open Finset

/-! ## Covariates and indices -/

/-- `_transform_covariates`, `dgp.py:889-903`, constants `dgp.py:10-17`. -/
noncomputable def transform (x : Fin 4 → ℝ) : Fin 4 → ℝ :=
  ![(Real.exp (x 0 / 2) - Real.exp (1 / 4 / 2)) / Real.sqrt ((Real.exp (1 / 4) - 1) * Real.exp (1 / 4)),
    (x 1 / (1 + Real.exp (x 0)) + 10 - 10) / (54164 / 100000),
    ((x 0 * x 2 / 25 + 6 / 10) ^ 3 - 21887 / 100000) / (4453 / 100000),
    ((x 0 + x 3 + 20) ^ 2 - 402) / (5663891 / 100000)]

/-- `_fps2`, `dgp.py:911-913`; `_fps`, `dgp.py:906-908`, is the case `c = 0`. -/
def fps2 (psi : ℝ) (w x : Fin 4 → ℝ) (c : ℝ) : ℝ := psi * (c + ∑ j, x j * w j)

/-- `_freg`, `dgp.py:916-918`. -/
def freg (b x : Fin 4 → ℝ) : ℝ := 210 + ∑ j, x j * b j

/-- The covariates behind the propensity score, `_select_covars`, `dgp.py:1007-1015`, and `dgp.py:96-103,193-200,340-347,479-486`. -/
noncomputable def psCovars (ty : ℕ) (x : Fin 4 → ℝ) : Fin 4 → ℝ := if ty = 1 ∨ ty = 3 then transform x else x

/-- The covariates behind the outcome regression, same lines. -/
noncomputable def orCovars (ty : ℕ) (x : Fin 4 → ℝ) : Fin 4 → ℝ := if ty = 1 ∨ ty = 2 then transform x else x

/-- The covariates in the returned data (first four), `dgp.py:154-157,253-256,446-449,554-557`, `_build_cov_dict`, `dgp.py:996-1004`. -/
noncomputable def reported (x : Fin 4 → ℝ) : Fin 4 → ℝ := transform x

/-- `b1`, `dgp.py:76,327,735`, `data.py:386`. -/
noncomputable def b1 : Fin 4 → ℝ := ![274 / 10, 137 / 10, 137 / 10, 137 / 10]

/-- `b2`, `dgp.py:77`. -/
noncomputable def b2 : Fin 4 → ℝ := ![685 / 100, 343 / 100, 343 / 100, 343 / 100]

/-! ## Assignment to groups -/

/-- Multinomial probabilities with a reference category, `dgp.py:951-955`, `data.py:606-610`. -/
noncomputable def softProbs (e : List ℝ) : List ℝ := e.map (· / (1 + e.sum)) ++ [1 / (1 + e.sum)]

/-- `np.cumsum`, `dgp.py:956,364,506`, `data.py:611`. -/
noncomputable def cumsum (p : List ℝ) : List ℝ := (List.range p.length).map fun j => (p.take (j + 1)).sum

/-- `(u >= cum_probs).sum()`, `dgp.py:958,366,508`, `data.py:613`; the draw of `Generator.choice` with probabilities, `data.py:560`. -/
noncomputable def groupType (p : List ℝ) (u : ℝ) : ℕ := ((cumsum p).filter fun c => decide (c ≤ u)).length

/-- The free categories' odds of `gen_dgp_scalable` and `gen_did_scalable`, `dgp.py:947-949`, `data.py:602-604`; `co` lists the coefficients
`(psi, w, c)` of `_generate_ps_coefficients`, `dgp.py:921-932`. -/
noncomputable def oddsOf (co : List (ℝ × (Fin 4 → ℝ) × ℝ)) (xps : Fin 4 → ℝ) : List ℝ :=
  co.map fun c => Real.exp (fps2 (4 / 10 * c.1) c.2.1 xps c.2.2)

/-- `cohort_values`, `dgp.py:737`, `data.py:388`. -/
def cohortValues (n : ℕ) : List ℕ := 0 :: (List.range n).map (· + 2)

/-- Cohort and partition of a category in `gen_dgp_scalable`, `dgp.py:960-966`; `none` is the `IndexError`. -/
def cohortPart (n k : ℕ) : Option (ℕ × ℕ) :=
  (((cohortValues n).filter (· ≠ 0) ++ [0])[k / 2]?).map fun g => (g, 1 - k % 2)

/-- Cohort of a category in `gen_did_scalable`, `data.py:615-617`; `none` is the `IndexError`. -/
def didCohort (n k : ℕ) : Option ℕ := ((cohortValues n).filter (· ≠ 0) ++ [0])[k]?

/-- Subgroup of `gen_dgp_2periods` from the odds of the first three, `dgp.py:111-125,208-222`. -/
noncomputable def subgroup (f1 f2 f3 u : ℝ) : ℕ :=
  let p1 := f1 / (1 + (f1 + f2 + f3))
  let p2 := f2 / (1 + (f1 + f2 + f3))
  let p4 := 1 / (1 + (f1 + f2 + f3))
  let pa := if u ≤ p1 then 1 else 0
  let pa := if u > p1 ∧ u ≤ p1 + p2 then 2 else pa
  let pa := if u > p1 + p2 ∧ u ≤ 1 - p4 then 3 else pa
  if u > 1 - p4 then 4 else pa

/-- State and partition of a subgroup, `dgp.py:127-128,224-225`. -/
def statePart (pa : ℕ) : ℕ × ℕ := (if pa = 3 ∨ pa = 4 then 1 else 0, if pa = 2 ∨ pa = 4 then 1 else 0)

/-- Category probabilities of `gen_dgp_mult_periods`, `dgp.py:349-363,488-505`, from the odds of the first five. -/
noncomputable def multProbs (e : List ℝ) : List ℝ :=
  let p := e.map (· / (1 + e.sum))
  p ++ [1 - p.sum]

/-- Cohort and partition of `gen_dgp_mult_periods`, `dgp.py:366-373,508-515`, from the zero-based category. -/
def multGroup (k : ℕ) : ℕ × ℕ :=
  (if k + 1 = 1 ∨ k + 1 = 2 then 2 else if k + 1 = 3 ∨ k + 1 = 4 then 3 else 0, if k + 1 = 1 ∨ k + 1 = 3 ∨ k + 1 = 5 then 1 else 0)

/-! ## Outcomes -/

/-- `_compute_scalable_outcome`, `dgp.py:969-993`, for one unit, with the indices of `dgp.py:760-767,837-844`: `lin` the outcome index,
`ev` the noise of `v`, `e0` the base noise of the period, `eg g` the noise drawn for cohort `g`. -/
noncomputable def scalableOutcome (values : List ℕ) (attBase : ℝ) (t : ℕ) (lin : ℝ) (cohort part : ℕ) (ev e0 : ℝ) (eg : ℕ → ℝ) : ℝ :=
  let v := (cohort * lin + part * lin) + ev
  let baseline := lin + part * lin + v
  let bt := baseline + ((t : ℝ) - 1) * lin + ((t : ℝ) - 1) * (v / 10)
  values.foldl (fun y g => if g = 0 ∨ t < g then y else
    if cohort = g ∧ part = 1 then bt + eg g + attBase * g * ((t : ℝ) - g + 1) * part else y) (bt + e0)

/-- `_compute_did_outcome`, `data.py:620-633`, for one unit, with the indices of `data.py:401-407,456-462`. -/
noncomputable def didOutcome (values : List ℕ) (attBase : ℝ) (t : ℕ) (lin : ℝ) (cohort : ℕ) (ev e0 : ℝ) (eg : ℕ → ℝ) : ℝ :=
  let v := cohort * lin + ev
  let baseline := lin + v
  let bt := baseline + ((t : ℝ) - 1) * lin + ((t : ℝ) - 1) * (v / 10)
  values.foldl (fun y g => if g = 0 ∨ t < g then y else
    if cohort = g then bt + eg g + attBase * g * ((t : ℝ) - g + 1) else y) (bt + e0)

/-- Outcomes of `gen_dgp_mult_periods`, `dgp.py:375-400`: periods 1, 2, 3 of a unit; the noises are those of `y_t1`, `y_t2_never`, `y_t2_g2`,
`y_t3_never`, `y_t3_g2`, `y_t3_g3`.  (In the repeated cross-sections, `dgp.py:517-543`, a unit has one of the three.) -/
noncomputable def multOutcome (t : ℕ) (lin : ℝ) (cohort part : ℕ) (ev : ℝ) (e : ℕ → ℝ) : ℝ :=
  let v := (cohort * lin + part * lin) + ev
  let base1 := lin + part * lin + v
  let base2 := base1 + v / 10 + lin
  let base3 := base1 + 2 * lin + 2 * (v / 10)
  if t = 1 then base1 + e 0
  else if t = 2 then (if cohort = 2 ∧ part = 1 then base2 + e 2 + 10 * part else base2 + e 1)
  else if cohort = 2 ∧ part = 1 then base3 + e 4 + 2 * 10 * part
  else if cohort = 3 ∧ part = 1 then base3 + e 5 + 25 * part
  else base3 + e 3

/-- Outcomes of `gen_dgp_2periods`, `dgp.py:130-144,227-237`: `r1`, `r0` the two outcome indices; noises of `v`, `y0`, `y10`, `y11`. -/
noncomputable def twoOutcome (t : ℕ) (r1 r0 : ℝ) (state part : ℕ) (ev : ℝ) (e : ℕ → ℝ) : ℝ :=
  let het := state * part * r1 + (1 - state) * part * r0
  let lin := state * r1 + (1 - state) * r0
  let v := het + ev
  if t = 1 then lin + v + e 0
  else (state * part) * (lin + v + e 2 + lin + 0) + (1 - state * part) * (lin + v + e 1 + lin)

/-- Outcomes of `generate_simple_ddd_data`, `dgp.py:616-631`. -/
noncomputable def simpleOutcome (att : ℝ) (t : ℕ) (x1 x2 : ℝ) (state part : ℕ) (alpha : ℝ) (e : ℕ → ℝ) : ℝ :=
  if t = 1 then 2 + 5 * state - 2 * part + 5 / 10 * x1 + 3 / 10 * x2 + 4 * state * part + alpha + e 0
  else 2 + 5 * state - 2 * part + 3 + 5 / 10 * x1 + 3 / 10 * x2 + 4 * state * part + 2 * state + 3 * part + att * state * part + alpha + e 1

/-- Outcomes of `simulate_cont_did_data`, `data.py:563-576`: `eta = group + ev`. -/
noncomputable def contOutcome (lin quad : ℝ) (t group : ℕ) (dose ev e0 e1 : ℝ) : ℝ :=
  let eta := (group : ℝ) + ev
  let post : ℝ := if group ≤ t ∧ group ≠ 0 then 1 else 0
  post * (lin * dose + quad * dose ^ 2 + t + eta + e1) + (1 - post) * (t + eta + e0)

end Verif.Sim
