import Verif.Honest.Sens
import Mathlib.Data.List.Sort

/-!
# Printed summaries and plot data

`core/format.py`, `did/format.py`, the level handling of `did/compute_aggte.py`, and `plots/converters.py`.  Numbers are reals; a float that
may be NaN is an `Option`, `none` for NaN.
-/

set_option linter.unusedSectionVars false
set_option linter.unusedSimpArgs false

namespace Verif.Report

open Verif.Honest MeasureTheory ProbabilityTheory

/-! ## Levels and bands of `att_gt` and `aggte` -/

/-- The entries of `estimation_params` used for inference; `alpha` may be missing from the dictionary. -/
structure Params where
  alpha : Option ℝ
  bootstrap : Bool
  uniform : Bool
  deriving Inhabited

/-- The level and the parameters of a group-time result. -/
structure Mp where
  alpha : ℝ
  params : Params

/-- The result of `att_gt`, `att_gt.py:500-511, 534`: `alpha` is a field of the result and not an entry of `estimation_params`. -/
def attGtMp (alp : ℝ) (boot cband : Bool) : Mp := ⟨alp, ⟨none, boot, cband⟩⟩

/-- `stats.norm.ppf(1 - alpha / 2)`, `att_gt.py:487`, `compute_aggte.py:963, 994-998`. -/
noncomputable def zcrit (a : ℝ) : ℝ := ppf (1 - a / 2)

/-- Parameters and level inside `compute_aggte`, `compute_aggte.py:86-96`. -/
def aggParams (m : Mp) (alpha : Option ℝ) (boot cband : Option Bool) : Params × ℝ :=
  ({ alpha := match alpha with | some a => some a | none => m.params.alpha
     bootstrap := boot.getD m.params.bootstrap
     uniform := cband.getD m.params.uniform }, match alpha with | some a => a | none => m.alpha)

/-- The critical value of the event, group or calendar effects, `compute_aggte.py:963-991`; `cv a` is the simultaneous critical value of the
bootstrap at level `a`, `none` if it is not finite. -/
noncomputable def batchedCrit (p : Params) (alpha : ℝ) (cv : ℝ → Option ℝ) : ℝ × Params :=
  if p.uniform then
    match cv alpha with
    | some c => (c, p)
    | none => (zcrit alpha, { p with uniform := false })
  else (zcrit alpha, p)

/-- `int((1 - alpha) * 100)`, `did/format.py:45, 140`, `didtriple/format.py:92`, `didcont/format.py:23`. -/
noncomputable def levelOf (a : ℝ) : ℕ := ⌊(1 - a) * 100⌋₊

/-- The level a summary of `aggte` is printed with, `did/format.py:44-45`. -/
noncomputable def aggLevel (p : Params) : ℕ := levelOf (p.alpha.getD (5 / 100))

/-- The overall interval printed for `aggte`, `did/format.py:44-49`. -/
noncomputable def aggOverall (p : Params) (att se : ℝ) : ℝ × ℝ :=
  (att - zcrit (p.alpha.getD (5 / 100)) * se, att + zcrit (p.alpha.getD (5 / 100)) * se)

/-- The interval of an event, group or calendar effect, `did/format.py:80-86`, and of a group-time effect, `did/format.py:146-147`. -/
def rowInterval (crit att se : ℝ) : ℝ × ℝ := (att - crit * se, att + crit * se)

/-- `"Simult. Conf. Band" if bootstrap and uniform_bands else "Pointwise Conf. Band"`, `did/format.py:76-78, 144`. -/
def simultLabel (p : Params) : Bool := p.bootstrap && p.uniform

/-- What `aggte` prints about an event, group or calendar effect. -/
structure EventPrint where
  level : ℕ
  simultaneous : Bool
  interval : ℝ × ℝ

/-- From the call of `aggte` to the printed row: `compute_aggte.py:86-96, 963-991`, `did/format.py:44-98`. -/
noncomputable def printEvent (m : Mp) (alpha : Option ℝ) (boot cband : Option Bool) (cv : ℝ → Option ℝ) (att se : ℝ) : EventPrint :=
  let q := aggParams m alpha boot cband
  let c := batchedCrit q.1 q.2 cv
  ⟨aggLevel c.2, simultLabel c.2, rowInterval c.1 att se⟩

/-- From the call of `aggte` to the printed overall row. -/
noncomputable def printOverall (m : Mp) (alpha : Option ℝ) (boot cband : Option Bool) (cv : ℝ → Option ℝ) (att se : ℝ) : ℕ × (ℝ × ℝ) :=
  let q := aggParams m alpha boot cband
  let c := batchedCrit q.1 q.2 cv
  (aggLevel c.2, aggOverall c.2 att se)

/-- `compute_significance`, `core/format.py:63-67`. -/
noncomputable def star (l u : Option ℝ) : Bool :=
  match l, u with
  | some l, some u => decide (u < 0) || decide (0 < l)
  | _, _ => false

/-- A row of `format_event_table` or `format_group_time_table`, `core/format.py:120-130, 142-151`: `none` is the row with `NA`. -/
noncomputable def tableRow (crit : ℝ) (att : ℝ) (se : Option ℝ) : Option ((ℝ × ℝ) × Bool) :=
  se.map fun s => (rowInterval crit att s, star (some (rowInterval crit att s).1) (some (rowInterval crit att s).2))

/-! ## Plot data -/

/-- A row of the plot data; `post = none` if there is no `treatment_status` column. -/
structure PlotRow where
  x : ℝ
  att : ℝ
  se : Option ℝ
  ci : Option (ℝ × ℝ)
  post : Option Bool

/-- `aggteresult_to_polars`, `converters.py:91-121`, `dddaggresult_to_polars`, `converters.py:374-403`, `pteresult_to_polars`,
`converters.py:210-237`: the kinds differ in whether they have a status column (`status`); `simple` raises; rows whose standard error is NaN
are dropped at the end. -/
noncomputable def plotEvents (simple status : Bool) (crit : Option ℝ) (rows : List (ℝ × ℝ × Option ℝ)) : Option (List PlotRow) :=
  if simple then none
  else some ((rows.map fun r => (⟨r.1, r.2.1, r.2.2, r.2.2.map fun s => rowInterval (crit.getD (196 / 100)) r.2.1 s,
    if status then some (!decide (r.1 < 0)) else none⟩ : PlotRow)).filter fun r => r.se.isSome)

/-- `mpresult_to_polars`, `converters.py:42-63`: rows are `(group, time, att, se)`; nothing is dropped. -/
noncomputable def plotGt (crit : ℝ) (rows : List (ℝ × ℝ × ℝ × Option ℝ)) : List (ℝ × PlotRow) :=
  rows.map fun r => (r.1, ⟨r.2.1, r.2.2.1, r.2.2.2, r.2.2.2.map fun s => rowInterval crit r.2.2.1 s, some (!decide (r.2.1 < r.1))⟩)

/-- `m_gap` and `original_m`, `converters.py:280-282`, from the distinct parameter values in increasing order. -/
noncomputable def originalM : List ℝ → Option ℝ
  | [] => none
  | [m] => some (m - m)
  | m :: m' :: rest => some (m - (List.zipWith (fun a b => b - a) (m :: m' :: rest) (m' :: rest)).foldr min (m' - m))

/-- `didinterresult_to_polars`, `converters.py:426-462`: placebos sorted by horizon, then effects sorted by horizon. -/
noncomputable def plotInter (placebos : Option (List PlotRow)) (effects : List PlotRow) : List PlotRow :=
  (match placebos with
    | some ps => (ps.insertionSort fun a b => a.x ≤ b.x).map fun r => { r with post := some false }
    | none => []) ++
  (effects.insertionSort fun a b => a.x ≤ b.x).map fun r => { r with post := some true }

end Verif.Report
