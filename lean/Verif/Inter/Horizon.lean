import Verif.Inter.Path
import Mathlib.Algebra.Order.Field.Basic
import Mathlib.Algebra.BigOperators.Ring.Finset
import Mathlib.Data.Fintype.Sigma
import Mathlib.Data.Fintype.BigOperators

/-!
# Horizon estimator: executable model

`moderndid/didinter/compute_did_multiplegt.py:241-395, 518-590, 862-883` without covariates (`xformla = "~1"`) and for one
horizon at a time.  The data frame is a family of rows: unit `i` has `n i` rows in the order in which the sorted frame holds
them.  A polars null is `none`; sums skip nulls.  `K` stands for the exact numbers, the `1e-10` floor is the field `eps`.
-/

set_option linter.unusedSectionVars false

namespace Verif.Inter

open Finset

/-- The frame `_compute_did_effects` receives, sorted by unit and period (`compute_did_multiplegt.py:259`). -/
structure Frame (ι β K : Type*) where
  /-- number of rows of a unit -/
  n : ι → ℕ
  /-- period of a row -/
  t : (i : ι) → Fin (n i) → ℤ
  /-- outcome of a row -/
  y : (i : ι) → Fin (n i) → Option K
  /-- treatment of a row -/
  d : (i : ι) → Fin (n i) → Option K
  /-- `weight_gt` of a row -/
  w : (i : ι) → Fin (n i) → K
  /-- `F_g` -/
  F : ι → WithTop ℤ
  /-- `L_g` -/
  L : ι → ℤ
  /-- `S_g` -/
  S : ι → ℤ
  /-- `d_sq` and the `trends_nonparam` columns: the keys of `get_group_vars` other than the period (lines 876-883) -/
  cell : ι → β
  /-- `d_sq` as a number -/
  dsq : ι → K

/-- `switchers=""`, `"in"`, `"out"`. -/
inductive Dir | all | into | out
  deriving DecidableEq

/-- The options that matter here, and `t_min`, `t_max` of the frame. -/
structure Opt (K : Type*) where
  onlyNever : Bool
  dir : Dir
  same : Bool
  samePl : Bool
  effects : ℕ
  placebo : ℕ
  tmin : ℤ
  tmax : ℤ
  eps : K

section
variable {ι β K : Type*} [Fintype ι] [DecidableEq ι] [DecidableEq β] [Field K] [LinearOrder K]

/-- The rows of the frame. -/
abbrev Frame.Row (P : Frame ι β K) : Type _ := (i : ι) × Fin (P.n i)

/-- `pl.col(y).shift(h).over(gname)`: the value `h` ROWS above in the same unit. -/
def Frame.shift (P : Frame ι β K) (r : P.Row) (h : ℕ) : Option K :=
  if hh : h ≤ r.2.1 then P.y r.1 ⟨r.2.1 - h, lt_of_le_of_lt (Nat.sub_le _ _) r.2.2⟩ else none

/-- `diff_y_h` for effects (line 267) and for placebos (line 270-272). -/
def Frame.diff (P : Frame ι β K) (placebo : Bool) (h : ℕ) (r : P.Row) : Option K :=
  if placebo then sub? (P.shift r h) (P.shift r (2 * h)) else sub? (P.shift r h) (P.y r.1 r.2)

/-- The period of row `r`. -/
def Frame.time (P : Frame ι β K) (r : P.Row) : ℤ := P.t r.1 r.2

/-- Value of `never_change_h` when `diff_y_h` is not null, lines 287-303. -/
def isControl (P : Frame ι β K) (o : Opt K) (r : P.Row) : Bool :=
  decide ((P.time r : WithTop ℤ) < P.F r.1) && !(o.onlyNever && decide (P.F r.1 < ((o.tmax + 1 : ℤ) : WithTop ℤ)))

/-- `never_change_h`, lines 287-303. -/
def never (P : Frame ι β K) (o : Opt K) (pl : Bool) (h : ℕ) (r : P.Row) : Option K :=
  (P.diff pl h r).map fun _ => if isControl P o r then 1 else 0

/-- Rows of the same `group_vars` group: same period, same baseline (and trend) cell. -/
def peers (P : Frame ι β K) (r : P.Row) : Finset P.Row :=
  univ.filter fun s => P.time s = P.time r ∧ P.cell s.1 = P.cell r.1

/-- `n_control_h`, lines 305-310. -/
def nControl (P : Frame ι β K) (o : Opt K) (pl : Bool) (h : ℕ) (r : P.Row) : K :=
  ∑ s ∈ peers P r, ((never P o pl h s).map fun c => c * P.w s.1 s.2).getD 0

/-- `same_switcher_valid` as it stands when the horizons are computed: both masks are written to the same column, the
placebo one last (lines 55-59, 862-873); it is consulted only under `same_switchers` (lines 322, 332). -/
def sameOk (P : Frame ι β K) (o : Opt K) (i : ι) : Bool :=
  if o.same then
    if o.samePl && decide (0 < o.placebo) then decide (((o.tmin + (o.placebo + 1) : ℤ) : WithTop ℤ) ≤ P.F i)
    else decide ((o.effects : ℤ) ≤ P.L i)
  else true

/-- `S_g == 1`, `S_g == -1` or `S_g != 0`, lines 312-320, 335-338. -/
def dirOk (o : Opt K) (S : ℤ) : Bool :=
  match o.dir with
  | .all => decide (S ≠ 0)
  | .into => decide (S = 1)
  | .out => decide (S = -1)

/-- `base_cond` and the direction, lines 322-338. -/
def isEvent (P : Frame ι β K) (o : Opt K) (pl : Bool) (h : ℕ) (r : P.Row) : Bool :=
  decide (((P.time r : ℤ) + 1 : WithTop ℤ) = P.F r.1 + (h : ℤ)) && decide ((h : ℤ) ≤ P.L r.1)
    && decide (0 < nControl P o pl h r) && sameOk P o r.1 && dirOk o (P.S r.1)

/-- `dist_to_switch_h`, lines 340-342. -/
def dist (P : Frame ι β K) (o : Opt K) (pl : Bool) (h : ℕ) (r : P.Row) : Option K :=
  (P.diff pl h r).map fun _ => if isEvent P o pl h r then 1 else 0

/-- `switcher_mask`, lines 312-323. -/
def swMask (P : Frame ι β K) (o : Opt K) (i : ι) : Bool := dirOk o (P.S i) && sameOk P o i

/-- `dist_to_switch_w_h`, lines 344-347, with null as 0 (it is only summed). -/
def distW (P : Frame ι β K) (o : Opt K) (pl : Bool) (h : ℕ) (r : P.Row) : K :=
  if swMask P o r.1 then ((dist P o pl h r).map fun x => x * P.w r.1 r.2).getD 0 else 0

/-- `n_treated_h`, lines 349-350. -/
def nTreated (P : Frame ι β K) (o : Opt K) (pl : Bool) (h : ℕ) (r : P.Row) : K :=
  ∑ s ∈ peers P r, distW P o pl h s

/-- `n_switchers_weighted`, lines 355-357. -/
def nSwW (P : Frame ι β K) (o : Opt K) (pl : Bool) (h : ℕ) : K := ∑ r : P.Row, distW P o pl h r

/-- The units counted by `n_switchers_unweighted`, lines 352-353. -/
def usedUnits (P : Frame ι β K) (o : Opt K) (pl : Bool) (h : ℕ) : Finset ι :=
  univ.filter fun i => ∃ k : Fin (P.n i), dist P o pl h ⟨i, k⟩ = some 1 ∧ swMask P o i = true

/-- `inf_func_h_temp` with null as 0, lines 366-378. -/
def infTemp (P : Frame ι β K) (o : Opt K) (pl : Bool) (h : ℕ) (r : P.Row) : K :=
  ((dist P o pl h r).map fun x =>
    (Fintype.card ι : K) / max (nSwW P o pl h) o.eps * P.w r.1 r.2
      * (x - nTreated P o pl h r / (if nControl P o pl h r = 0 then 1 else nControl P o pl h r)
          * (never P o pl h r).getD 0) * (P.diff pl h r).getD 0).getD 0

/-- `inf_func_h` of a unit, lines 380-381. -/
def unitInf (P : Frame ι β K) (o : Opt K) (pl : Bool) (h : ℕ) (i : ι) : K :=
  ∑ k : Fin (P.n i), infTemp P o pl h ⟨i, k⟩

/-- The estimate before normalisation, lines 359-364, 383; `none` is NaN.  `n_groups` is the number of units (line 52). -/
def estimate (P : Frame ι β K) (o : Opt K) (pl : Bool) (h : ℕ) : Option K :=
  if usedUnits P o pl h = ∅ then none else some ((∑ i, unitInf P o pl h i) / Fintype.card ι)

/-- `_treat_diff_temp` summed over the post-switch rows of a unit, lines 529-546.  An empty or all-null polars sum is 0. -/
def doseSum (P : Frame ι β K) (h : ℕ) (i : ι) : K :=
  ∑ k : Fin (P.n i),
    if P.F i ≤ (P.t i k : WithTop ℤ) ∧ ((P.t i k : ℤ) + 1 : WithTop ℤ) ≤ P.F i + (h : ℤ)
    then ((P.d i k).map fun x => x - P.dsq i).getD 0 else 0

/-- Rows with `dist_to_switch == 1`: they supply the weights, line 549. -/
def eventRows (P : Frame ι β K) (o : Opt K) (pl : Bool) (h : ℕ) : Finset P.Row :=
  univ.filter fun r => dist P o pl h r = some 1

/-- `_compute_delta_d`, lines 518-571, in frames where a unit has at most one such row (so that `unique` on line 549 leaves
one row per unit).  `none` is `None`. -/
def deltaD (P : Frame ι β K) (o : Opt K) (pl : Bool) (h : ℕ) : Option K :=
  let W := ∑ r ∈ eventRows P o pl h, P.w r.1 r.2
  if W = 0 then none
  else some (∑ r ∈ eventRows P o pl h,
    P.w r.1 r.2 / W * (if P.S r.1 = 1 then doseSum P h r.1 else -doseSum P h r.1))

/-- The reported estimate with `normalized=True`, lines 392-395. -/
def normalised (P : Frame ι β K) (o : Opt K) (pl : Bool) (h : ℕ) : Option K :=
  (estimate P o pl h).map fun e => ((deltaD P o pl h).map fun x => if x = 0 then e else e / x).getD e

/-- `_compute_ate`, lines 574-590: horizons `0..m-1` hold unnormalised estimates (`none` = NaN), weighted numbers of switchers
and `delta_d` (0 when `None`). -/
def ate {m : ℕ} (est : Fin m → Option K) (N : Fin m → K) (delta : Fin m → K) : Option K :=
  let valid : Finset (Fin m) := univ.filter fun l => (est l).isSome = true ∧ 0 < N l
  if valid = ∅ then none
  else
    let d1 : K := if hm : 0 < m then (if delta ⟨0, hm⟩ = 0 then 1 else delta ⟨0, hm⟩) else 1
    some ((∑ l ∈ valid, N l / (∑ l' ∈ valid, N l') * (est l).getD 0) / d1)

end

end Verif.Inter
