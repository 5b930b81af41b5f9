import Mathlib.Data.List.Dedup
import Mathlib.Data.List.Count
import Mathlib.Data.List.ProdSigma
import Mathlib.Algebra.Order.Field.Basic
import Mathlib.Algebra.BigOperators.Group.List.Basic

/-!
# Panel utilities: executable model

Models `moderndid/core/panel.py` and the panel helpers of `moderndid/core/preprocess/utils.py`.

A long data frame is a `List` of rows; a row has a unit identifier, a period and a payload (all the
other columns).  Polars operations used by the code are modelled as follows:

* `df[c].n_unique()`                 → length of `dedup` of the column;
* `df.group_by(id).agg(f)`           → one entry per element of `dedup` of the id column, `f` applied to
                                       the rows of that id in frame order (the order of the groups is
                                       unspecified in polars; no theorem depends on it);
* `df.filter(p)`                     → `List.filter` (polars keeps row order);
* `a.join(b, how="cross")`           → list product;
* `df.unique(subset=…, keep=…)`      → one row per key (row order of the result unspecified in polars).
-/

namespace Verif.Panel

/-- A row of a long panel: unit id, period, other columns. -/
structure Row (ι τ β : Type*) where
  id : ι
  t : τ
  val : β
deriving DecidableEq, Repr

variable {ι τ β : Type*} [DecidableEq ι] [DecidableEq τ]

/-- `series.n_unique()`. -/
def nUnique {α : Type*} [DecidableEq α] (l : List α) : ℕ := l.dedup.length

/-- The `(id, t)` key of every row: `df.select([idname, tname])`. -/
def keys (df : List (Row ι τ β)) : List (ι × τ) := df.map fun r => (r.id, r.t)

/-- `make_balanced_panel`, `core/preprocess/utils.py:34-58` (public wrapper `core/panel.py:352-396`).
The unit's *row count* (`group_by(id).len()`) is compared with the number of distinct periods. -/
def makeBalanced (df : List (Row ι τ β)) : List (Row ι τ β) :=
  if df.isEmpty then df
  else
    let nPeriods := nUnique (df.map Row.t)
    let counts := (df.map Row.id).dedup.map fun u => (u, (df.filter fun r => r.id = u).length)
    let completeIds := (counts.filter fun c => c.2 = nPeriods).map Prod.fst
    df.filter fun r => r.id ∈ completeIds

/-- `group_by(id).agg(pl.col(t).n_unique())`: used by `is_balanced_panel`, `complete_data`,
`diagnose_panel` (`core/preprocess/utils.py:315`, `core/panel.py:175,612`). -/
def periodsPerUnit (df : List (Row ι τ β)) : List (ι × ℕ) :=
  (df.map Row.id).dedup.map fun u => (u, nUnique ((df.filter fun r => r.id = u).map Row.t))

/-- `is_balanced_panel`, `core/preprocess/utils.py:296-317`. -/
def isBalanced (df : List (Row ι τ β)) : Bool :=
  let nPeriods := nUnique (df.map Row.t)
  (periodsPerUnit df).all fun c => c.2 = nPeriods

/-- `complete_data`, `core/panel.py:562-616`; `minPeriods = none` is the Python default. -/
def completeData (df : List (Row ι τ β)) (minPeriods : Option ℕ) : List (Row ι τ β) :=
  if df.isEmpty then df
  else
    let k := minPeriods.getD (nUnique (df.map Row.t))
    let keepIds := ((periodsPerUnit df).filter fun c => k ≤ c.2).map Prod.fst
    df.filter fun r => r.id ∈ keepIds

/-- `ids.join(times, how="cross")` in `fill_panel_gaps` / `scan_gaps`, `core/panel.py:554-556,737-739`. -/
def fullGrid (df : List (Row ι τ β)) : List (ι × τ) :=
  (df.map Row.id).dedup ×ˢ (df.map Row.t).dedup

/-- `fill_panel_gaps`, `core/panel.py:513-559`: left join of the full grid with the data.
A grid pair without a matching row gives one row with null payload (`none`); a pair with matching rows
gives each of them. -/
def fillGaps (df : List (Row ι τ β)) : List (Row ι τ (Option β)) :=
  (fullGrid df).flatMap fun p =>
    let m := df.filter fun r => (r.id, r.t) = p
    if m.isEmpty then [⟨p.1, p.2, none⟩] else m.map fun r => ⟨r.id, r.t, some r.val⟩

/-- `scan_gaps`, `core/panel.py:704-742`: anti join of the grid with the unique observed pairs. -/
def scanGaps (df : List (Row ι τ β)) : List (ι × τ) :=
  (fullGrid df).filter fun p => p ∉ (keys df).dedup

/-- `has_gaps`, `core/panel.py:745-781`. -/
def hasGaps (df : List (Row ι τ β)) : Bool :=
  nUnique (keys df) < nUnique (df.map Row.id) * nUnique (df.map Row.t)

/-- Deduplication strategy argument of `deduplicate_panel` (`core/panel.py:441`). -/
inductive Strategy | first | last | mean
deriving DecidableEq, Repr

/-- Parsing/validation of the strategy string, `core/panel.py:490-492`; `none` is the `ValueError`. -/
def parseStrategy (s : String) : Option Strategy :=
  if s = "first" then some .first
  else if s = "last" then some .last
  else if s = "mean" then some .mean
  else none

/-- `df.unique(subset=[id,t], keep="first")`. -/
def uniqueFirst (df : List (Row ι τ β)) : List (Row ι τ β) :=
  (keys df).dedup.filterMap fun k => df.find? fun r => (r.id, r.t) = k

/-- `df.unique(subset=[id,t], keep="last")`. -/
def uniqueLast (df : List (Row ι τ β)) : List (Row ι τ β) :=
  (keys df).dedup.filterMap fun k => df.reverse.find? fun r => (r.id, r.t) = k

/-- `group_by([id,t]).agg(mean)`, `core/panel.py:499-508`, for one numeric payload column
(several numeric columns are handled independently by the code; non-numeric columns use `first`). -/
def uniqueMean {K : Type*} [DivisionRing K] (df : List (Row ι τ K)) : List (Row ι τ K) :=
  (keys df).dedup.map fun k =>
    let g := (df.filter fun r => (r.id, r.t) = k).map Row.val
    ⟨k.1, k.2, g.sum / (g.length : K)⟩

/-- `deduplicate_panel`, `core/panel.py:441-510`, for a numeric payload; `none` is the `ValueError`. -/
def deduplicate {K : Type*} [DivisionRing K] (df : List (Row ι τ K)) (strategy : String) :
    Option (List (Row ι τ K)) :=
  match parseStrategy strategy with
  | none => none
  | some .first => some (uniqueFirst df)
  | some .last => some (uniqueLast df)
  | some .mean => some (uniqueMean df)

/-- Numeric part of `PanelDiagnostics`, `core/panel.py:166-193`. -/
structure Diagnostics where
  nUnits : ℕ
  nPeriods : ℕ
  nObs : ℕ
  balanced : Bool
  nDups : ℤ
  nUnbalanced : ℕ
  nGaps : ℤ
  nSingle : ℕ
deriving DecidableEq, Repr

/-- `diagnose_panel`, `core/panel.py:106-228` without the null-row count and the treatment columns
(`nEarly`, `treatVarying` are modelled separately below). -/
def diagnose (df : List (Row ι τ β)) : Diagnostics :=
  let nUnits := nUnique (df.map Row.id)
  let nPeriods := nUnique (df.map Row.t)
  let nObs := df.length
  let deduped := nUnique (keys df)
  let counts := periodsPerUnit df
  { nUnits, nPeriods, nObs
    balanced := isBalanced df
    nDups := (nObs : ℤ) - deduped
    nUnbalanced := (counts.filter fun c => c.2 < nPeriods).length
    nGaps := ((nUnits * nPeriods : ℕ) : ℤ) - deduped
    nSingle := (counts.filter fun c => c.2 = 1).length }

/-- `n_early_treated`, `core/panel.py:185-188`; the treatment is read by `treat : β → ℤ`. -/
def nEarly [LinearOrder τ] (treat : β → ℤ) (df : List (Row ι τ β)) : ℕ :=
  match (df.map Row.t).min? with
  | none => 0
  | some first => nUnique ((df.filter fun r => r.t = first ∧ 0 < treat r.val).map Row.id)

/-- `treatment_time_varying` (`core/panel.py:190-193`) and `are_varying` (`core/panel.py:660-701`) for
one column read by `f`. -/
def isVarying {γ : Type*} [DecidableEq γ] (f : β → γ) (df : List (Row ι τ β)) : Bool :=
  ((df.map Row.id).dedup.map fun u => nUnique ((df.filter fun r => r.id = u).map fun r => f r.val)).any
    fun n => 1 < n

/-- `assign_rc_ids`, `core/panel.py:619-657` (`with_row_index`). -/
def assignRcIds {α : Type*} (df : List α) : List (ℕ × α) := df.zipIdx.map fun p => (p.2, p.1)

/-- `create_ddd_subgroups`, `core/preprocess/utils.py:434-451`. -/
def dddSubgroup {γ : Type*} [DecidableEq γ] (treat treatVal : γ) (partition : ℤ) : ℕ :=
  let isTreated := treat = treatVal
  let isEligible := partition = 1
  if isTreated ∧ isEligible then 4
  else if isTreated ∧ ¬ isEligible then 3
  else if isEligible then 2 else 1

/-- The per-cell recomputation in `_compute_single_ddd`, `didtriple/estimators/ddd_mp.py:584-590`. -/
def dddSubgroupCell {γ : Type*} [DecidableEq γ] (treat treatVal : γ) (partition : ℤ) : ℕ :=
  let b : Bool → ℕ := fun x => if x then 1 else 0
  let tr : ℕ := b (decide (treat = treatVal))
  4 * b (decide (tr = 1)) * b (decide (partition = 1))
    + 3 * b (decide (tr = 1)) * b (decide (partition = 0))
    + 2 * b (decide (tr = 0)) * b (decide (partition = 1))
    + 1 * b (decide (tr = 0)) * b (decide (partition = 0))

end Verif.Panel
