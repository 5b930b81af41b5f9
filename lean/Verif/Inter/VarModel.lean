import Verif.Inter.Horizon

/-!
# Standard errors of `did_multiplegt`: executable model

`moderndid/didinter/compute_did_multiplegt.py:287-515, 574-663`, `variance.py:85-521`.  The frame is the one of
`Verif.Inter.Horizon`; the outcome change of a row is a parameter `D` because covariates overwrite that column
(`controls.py:176-181`); without covariates `D = P.diff pl h` and the definitions below agree with those of `Horizon`
(`VarLemmas`).  A polars null is `none`.  `sq` stands for `sqrt`.

Simplifications: the cluster is a property of the unit (the column is read on every row and, for the variance, on the unit's
first row); division by a zero sum of weights is 0 instead of NaN, so the theorems ask for positive weights where it matters.
-/

set_option linter.unusedSectionVars false

namespace Verif.Inter

open Finset

variable {ι β γ K : Type*} [Fintype ι] [DecidableEq ι] [DecidableEq β] [DecidableEq γ] [Field K] [LinearOrder K]

/-- What the variance needs beyond the frame: `d_fg` (`transformers.py:639-645`), the cluster column (`none`: no clustering),
`less_conservative_se`, and the square root. -/
structure VOpt (ι γ K : Type*) where
  dfg : ι → Option K
  cluster : Option (ι → Option γ)
  less : Bool
  sq : K → K

section
variable (P : Frame ι β K) (o : Opt K) (h : ℕ) (D : P.Row → Option K)

/-- `never_change_h`, `compute_did_multiplegt.py:287-303`. -/
def neverD (r : P.Row) : Option K := (D r).map fun _ => if isControl P o r then 1 else 0

/-- `n_control_h`, lines 305-310. -/
def nControlD (r : P.Row) : K :=
  ∑ s ∈ peers P r, ((neverD P o D s).map fun c => c * P.w s.1 s.2).getD 0

/-- `base_cond` and the direction, lines 322-338. -/
def isEventD (r : P.Row) : Bool :=
  decide (((P.time r : ℤ) + 1 : WithTop ℤ) = P.F r.1 + (h : ℤ)) && decide ((h : ℤ) ≤ P.L r.1)
    && decide (0 < nControlD P o D r) && sameOk P o r.1 && dirOk o (P.S r.1)

/-- `dist_to_switch_h`, lines 340-342. -/
def distD (r : P.Row) : Option K := (D r).map fun _ => if isEventD P o h D r then 1 else 0

/-- `dist_to_switch_w_h`, lines 344-347. -/
def distWD (r : P.Row) : K :=
  if swMask P o r.1 then ((distD P o h D r).map fun x => x * P.w r.1 r.2).getD 0 else 0

/-- `n_treated_h`, lines 349-350. -/
def nTreatedD (r : P.Row) : K := ∑ s ∈ peers P r, distWD P o h D s

/-- `n_switchers_weighted`, lines 355-357. -/
def nSwWD : K := ∑ r : P.Row, distWD P o h D r

/-- `dist - n_treated / n_control * never`, lines 375 and 435; null when `dist` is. -/
def contrastD (r : P.Row) : Option K :=
  (distD P o h D r).map fun x =>
    x - nTreatedD P o h D r / (if nControlD P o D r = 0 then 1 else nControlD P o D r) * (neverD P o D r).getD 0

/-- `G / N`, lines 373 and 432. -/
def scaleGN : K := (Fintype.card ι : K) / max (nSwWD P o h D) o.eps

/-- The estimate, lines 371-383 (`usedUnits` aside). -/
def estimateD : K :=
  (∑ r : P.Row, ((contrastD P o h D r).map fun a => scaleGN P o h D * P.w r.1 r.2 * a * (D r).getD 0).getD 0)
    / Fintype.card ι

/-- `is_switcher_h == 1`, `compute_did_multiplegt.py:404`, `variance.py:110`. -/
def isSwD (r : P.Row) : Bool := decide (distD P o h D r = some 1)

/-- `never_change_h == 1`, `variance.py:179`. -/
def isCtD (r : P.Row) : Bool := decide (neverD P o D r = some 1)

/-- `weighted_diff_h`, `compute_did_multiplegt.py:405`. -/
def wdiffD (r : P.Row) : K := (D r).getD 0 * P.w r.1 r.2

/-- Weighted mean of the change over the rows of a set. -/
def meanOver (A : Finset P.Row) : K := (∑ s ∈ A, wdiffD P D s) / ∑ s ∈ A, P.w s.1 s.2

variable (v : VOpt ι γ K)

/-- Rows with the keys `d_sq`, trends, `F_g`, `d_fg` of a row (`variance.py:112-114` without the distance column). -/
def cohortKey (r : P.Row) : Finset P.Row :=
  univ.filter fun s => P.cell s.1 = P.cell r.1 ∧ P.F s.1 = P.F r.1 ∧ v.dfg s.1 = v.dfg r.1

/-- Switcher rows of a row's cohort: the rows the masked sums of `variance.py:119-130` range over. -/
def cohort (r : P.Row) : Finset P.Row := (cohortKey P v r).filter fun s => isSwD P o h D s

/-- Control rows of the row's period and baseline cell, `variance.py:179-193`. -/
def ctGroup (r : P.Row) : Finset P.Row := (peers P r).filter fun s => isCtD P o D s

/-- Switcher and control rows of the row's period and baseline cell, `variance.py:249-266`. -/
def unGroup (r : P.Row) : Finset P.Row := (peers P r).filter fun s => isSwD P o h D s || isCtD P o D s

/-- `n_unique` of the masked cluster column over a group: rows outside the mask hold null, and null counts as a value
(`variance.py:133-139, 200-206, 273-279`). -/
def nUnique (c : ι → Option γ) (A : Finset P.Row) (mask : P.Row → Bool) : ℕ :=
  (A.image fun s => if mask s then c s.1 else none).card

/-- `dof_switcher_h`, `variance.py:127-140`.  The group key holds the distance column for effects; for placebos that column has
another name and is dropped from the key (`variance.py:108-114`, `compute_did_multiplegt.py:273`). -/
def dofS (pl : Bool) (r : P.Row) : Option ℕ :=
  if isSwD P o h D r then
    match v.cluster with
    | none => some (cohort P o h D v r).card
    | some c =>
      if (c r.1).isSome then
        some (nUnique P c (if pl then cohortKey P v r else (cohortKey P v r).filter fun s => distD P o h D s = distD P o h D r)
          (isSwD P o h D))
      else none
  else none

/-- `dof_control_h`, `variance.py:195-207`. -/
def dofC (r : P.Row) : Option ℕ :=
  if isCtD P o D r then
    match v.cluster with
    | none => some (ctGroup P o D r).card
    | some c => if (c r.1).isSome then some (nUnique P c (peers P r) (isCtD P o D)) else none
  else none

/-- `dof_union_h`, `variance.py:268-280`. -/
def dofU (r : P.Row) : Option ℕ :=
  if isSwD P o h D r || isCtD P o D r then
    match v.cluster with
    | none => some (unGroup P o h D r).card
    | some c =>
      if (c r.1).isSome then some (nUnique P c (peers P r) fun s => isSwD P o h D s || isCtD P o D s) else none
  else none

/-- `cohort_mean_h`, `variance.py:142-145`. -/
def meanS (r : P.Row) : K := if isSwD P o h D r then meanOver P D (cohort P o h D v r) else 0

/-- `control_mean_h`, `variance.py:209-214`. -/
def meanC (r : P.Row) : K :=
  if isCtD P o D r ∧ 0 < ∑ s ∈ ctGroup P o D r, P.w s.1 s.2 then meanOver P D (ctGroup P o D r) else 0

/-- `union_mean_h`, `variance.py:282-287`. -/
def meanU (r : P.Row) : K :=
  if (isSwD P o h D r || isCtD P o D r) ∧ 0 < ∑ s ∈ unGroup P o h D r, P.w s.1 s.2 then meanOver P D (unGroup P o h D r)
  else 0

/-- `at_target`, `variance.py:323, 392`. -/
def atTarget (r : P.Row) : Bool := decide (((P.time r : ℤ) + 1 : WithTop ℤ) = P.F r.1 + (h : ℤ))

/-- `before_switch`, `variance.py:324, 393`. -/
def beforeSwitch (r : P.Row) : Bool := decide ((P.time r : WithTop ℤ) < P.F r.1)

/-- `E_hat_h` with null as 0, `variance.py:292-355`, `compute_did_multiplegt.py:437`. -/
def eHat (pl : Bool) (r : P.Row) : K :=
  let s := (dofS P o h D v pl r).getD 9999
  let c := (dofC P o D v r).getD 9999
  let u := (dofU P o h D v r).getD 9999
  if atTarget P h r && decide (2 ≤ s) then meanS P o h D v r
  else if beforeSwitch P r && decide (2 ≤ c) then meanC P o D r
  else if decide (2 ≤ u) && ((atTarget P h r && decide (s = 1)) || (beforeSwitch P r && decide (c = 1))) then meanU P o h D r
  else 0

/-- `sqrt(dof / (dof - 1))`. -/
def dofRoot (n : ℕ) : K := v.sq ((n : K) / ((n : K) - 1))

/-- `dof_scale_h` with null as 1, `variance.py:358-419`, `compute_did_multiplegt.py:417`. -/
def dofScale (pl : Bool) (r : P.Row) : K :=
  let s := (dofS P o h D v pl r).getD 9999
  let c := (dofC P o D v r).getD 9999
  let u := (dofU P o h D v r).getD 9999
  if v.less then 1
  else if atTarget P h r && decide (1 < s) then ((dofS P o h D v pl r).map (dofRoot v)).getD 1
  else if beforeSwitch P r && decide (1 < c) then ((dofC P o D v r).map (dofRoot v)).getD 1
  else if (atTarget P h r && decide (s = 1) && decide (2 ≤ u)) || (beforeSwitch P r && decide (c = 1) && decide (2 ≤ u)) then
    ((dofU P o h D v r).map (dofRoot v)).getD 1
  else 1

/-- `_F_g_trunc`: `F_g`, or the unit's last period plus one, `transformers.py:950-962` (a unit has at least one row). -/
def fTrunc (i : ι) : ℤ := (P.F i).untopD ((univ.image (P.t i)).max.unbotD 0 + 1)

/-- `T_g`, `transformers.py:953-963`. -/
def tG (i : ι) : ℤ := ((univ.filter fun j => P.cell j = P.cell i).sup' ⟨i, by simp⟩ (fTrunc P)) - 1

/-- `dummy_u_gg_h * time_constraint_h`, `compute_did_multiplegt.py:421-426`. -/
def window (r : P.Row) : Bool :=
  decide ((h : ℤ) ≤ tG P r.1 - 1) && decide ((h : ℤ) + 1 ≤ P.time r) && decide (P.time r ≤ tG P r.1)

/-- `inf_func_var_h` of a row with null as 0, `compute_did_multiplegt.py:428-439`. -/
def infVar (pl : Bool) (r : P.Row) : K :=
  ((contrastD P o h D r).map fun a =>
    (if window P h r then 1 else 0) * scaleGN P o h D * P.w r.1 r.2 * a * dofScale P o h D v pl r
      * ((D r).getD 0 - eHat P o h D v pl r)).getD 0

/-- The unit's influence value, `compute_did_multiplegt.py:440-446`. -/
def unitVar (pl : Bool) (i : ι) : K := ∑ k : Fin (P.n i), infVar P o h D v pl ⟨i, k⟩

end

/-- Standard error without clusters, `compute_did_multiplegt.py:468`. -/
def plainSE (sq : K → K) (ψ : ι → K) : K := sq (∑ i, ψ i ^ 2) / Fintype.card ι

/-- Units whose cluster is known, `compute_did_multiplegt.py:456-465`. -/
def known (c : ι → Option γ) : Finset ι := univ.filter fun i => (c i).isSome

/-- `compute_clustered_variance` on the units whose cluster is known, `variance.py:422-466`,
`compute_did_multiplegt.py:455-466`. -/
def clusteredSE (sq : K → K) (c : ι → Option γ) (ψ : ι → K) : K :=
  if ((known c).image c).card ≤ 1 then sq (∑ i ∈ known c, ψ i ^ 2) / Fintype.card ι
  else sq (∑ g ∈ (known c).image c, (∑ i ∈ (known c).filter (fun i => c i = g), ψ i) ^ 2) / Fintype.card ι

/-- The standard error before normalisation, `compute_did_multiplegt.py:455-468`. -/
def horizonSE (v : VOpt ι γ K) (ψ : ι → K) : K :=
  match v.cluster with
  | none => plainSE v.sq ψ
  | some c => clusteredSE v.sq c ψ

/-- Division by `delta_d` under `normalized=True`, `compute_did_multiplegt.py:472-474`. -/
def normSE (normalized : Bool) (δ : Option K) (x : K) : K :=
  match δ with
  | some d => if normalized ∧ d ≠ 0 then x / d else x
  | none => x

/-- Entry of `np.cov(influence_matrix, rowvar=False) / n_groups`, `compute_did_multiplegt.py:497-500`. -/
def vcovEntry (ψ φ : ι → K) : K :=
  (∑ i, (ψ i - (∑ j, ψ j) / Fintype.card ι) * (φ i - (∑ j, φ j) / Fintype.card ι)) / ((Fintype.card ι : K) - 1)
    / Fintype.card ι

/-- Standard error of the average total effect, `compute_did_multiplegt.py:574-620`.  Horizon `l` has its unnormalised
influence values `ψ l` (`none`: the horizon had no switchers, lines 359-364), weighted number of switchers `N l` (0 then) and
reported standard error `se l`; `d1` is `delta_d` of the first horizon, 1 when that is 0.  `nanmask l` is `~isnan(estimates)`
on `estimates_unnorm`, which is 0, not NaN, where there are no switchers, so only `N l > 0` decides.  With a missing horizon
neither the influence matrix nor the covariance matrix is complete and the last branch runs. -/
def ateSE {m : ℕ} (sq : K → K) (ψ : Fin m → Option (ι → K)) (N se : Fin m → K) (d1 : K) : Option K :=
  let valid : Finset (Fin m) := univ.filter fun l => 0 < N l
  if valid = ∅ then none
  else if ∀ l, (ψ l).isSome then
    some (sq (∑ i, ((∑ l ∈ valid, N l / (∑ l' ∈ valid, N l') * ((ψ l).getD 0) i) / d1) ^ 2) / Fintype.card ι)
  else some (sq ((∑ l ∈ valid, se l ^ 2) / valid.card) / |d1|)

end Verif.Inter
