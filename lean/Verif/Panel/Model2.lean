import Verif.Panel.Model
import Mathlib.Data.List.Sort

/-!
# Panel utilities, part 2: `get_group`, `get_first_difference`, `panel_to_wide`, `wide_to_panel`
-/

namespace Verif.Panel

variable {ι τ β : Type*}

section Sorting
variable [LinearOrder ι] [LinearOrder τ]

/-- The comparison of `sort([idname, tname])`. -/
def leIdT (a b : Row ι τ β) : Prop := a.id < b.id ∨ (a.id = b.id ∧ a.t ≤ b.t)

instance : DecidableRel (leIdT (ι := ι) (τ := τ) (β := β)) := fun a b => by
  unfold leIdT; infer_instance

/-- `data.sort([idname, tname])` (`core/preprocess/utils.py:81,124`, `core/panel.py:954`).  Polars does
not promise stability; `insertionSort` is stable, which matters only for rows sharing id and period. -/
def sortIdT (df : List (Row ι τ β)) : List (Row ι τ β) := df.insertionSort leIdT

/-- Running count of `_is_treated` within one unit, `(treat > 0).cum_sum().over(id)`
(`core/preprocess/utils.py:128`). The accumulator is the count before the row. -/
def treatCumsum (treat : β → ℤ) : ℕ → List (Row ι τ β) → List (Row ι τ β × ℕ)
  | _, [] => []
  | n, r :: rs =>
    let n' := if 0 < treat r.val then n + 1 else n
    (r, n') :: treatCumsum treat n' rs

/-- Lines 126-133: the period of the first row of unit `u` flagged `_first_treat`. -/
def firstTreat (treat : β → ℤ) (df : List (Row ι τ β)) (u : ι) : Option τ :=
  let flagged := (treatCumsum treat 0 ((sortIdT df).filter fun r => r.id = u)).filter fun p =>
    decide (p.2 = 1) && decide (0 < treat p.1.val)
  flagged.head?.map fun p => p.1.t

/-- `get_group` without `treat_period`, `core/preprocess/utils.py:124-139`: every row gets its unit's
first treated period, `fill_null(0)` otherwise.  Null treatment values are not modelled. -/
def getGroup (treat : β → ℤ) (df : List (Row ι ℤ β)) : List (Row ι ℤ β × ℤ) :=
  df.map fun r => (r, (firstTreat treat df r.id).getD 0)

/-- `get_group` with `treat_period`, `core/preprocess/utils.py:110-122`. -/
def getGroupPeriod (treat : β → ℤ) (g : ℤ) (df : List (Row ι τ β)) : List (Row ι τ β × ℤ) :=
  df.map fun r => (r, if df.any (fun s => decide (s.id = r.id) && decide (0 < treat s.val)) then g else 0)

/-- `pl.col(y) - pl.col(y).shift(1).over(id)` on a frame: `seen` are the rows before, most recent first. -/
def diffOver {K : Type*} [Sub K] (y : β → K) :
    List (Row ι τ β) → List (Row ι τ β) → List (Row ι τ β × Option K)
  | _, [] => []
  | seen, r :: rs =>
    (r, (seen.find? fun s => s.id = r.id).map fun s => y r.val - y s.val) :: diffOver y (r :: seen) rs

/-- `get_first_difference`, `core/preprocess/utils.py:61-82`. -/
def firstDifference {K : Type*} [Sub K] (y : β → K) (df : List (Row ι τ β)) :
    List (Row ι τ β × Option K) := diffOver y [] (sortIdT df)

end Sorting

/-- Column names are Python strings, i.e. lists of characters. -/
abbrev Name := List Char

/-- A wide table: column names (without the id column) and one row per unit; a null is `none`. -/
structure Wide (ι β : Type*) where
  cols : List Name
  rows : List (ι × (Name → Option β))

section Reshape
variable [LinearOrder ι] [LinearOrder τ] [DecidableEq β]

/-- Time-varying columns, `core/panel.py:832-834` (`n_unique` within some unit exceeds one; nulls count
as a value). -/
def varyingCols (cols : List Name) (df : List (Row ι τ (Name → Option β))) : List Name :=
  cols.filter fun c => isVarying (fun v : Name → Option β => v c) df

/-- Time-invariant columns, `core/panel.py:833`. -/
def constantCols (cols : List Name) (df : List (Row ι τ (Name → Option β))) : List Name :=
  cols.filter fun c => !isVarying (fun v : Name → Option β => v c) df

/-- Name of a pivoted column, `core/panel.py:842-851`: polars names it `stub ++ sep ++ label` when several
value columns are pivoted, and the code renames to the same form when there is one. -/
def pivotName {τ : Type*} (label : τ → Name) (sep : Name) (p : Name × τ) : Name := p.1 ++ sep ++ label p.2

/-- `panel_to_wide`, `core/panel.py:784-854`; `label t` is polars' text form of period `t`.  On panels with
duplicate pairs polars' `pivot` raises; the model is used on duplicate-free panels only. -/
def panelToWide (label : τ → Name) (sep : Name) (cols : List Name)
    (df : List (Row ι τ (Name → Option β))) : Wide ι β :=
  let consts := constantCols cols df
  let pivots := varyingCols cols df ×ˢ (df.map Row.t).dedup
  { cols := consts ++ pivots.map (pivotName label sep)
    rows := (df.map Row.id).dedup.map fun u => (u, fun n =>
      if n ∈ consts then (df.find? fun r => r.id = u).bind fun r => r.val n
      else (pivots.find? fun p => pivotName label sep p = n).bind fun p =>
        (df.find? fun r => r.id = u ∧ r.t = p.2).bind fun r => r.val p.1) }

/-- Lines 916-922 of `wide_to_panel`: the first stub whose prefix matches, and the period label. -/
def matchStub (sep : Name) (stubs : List Name) (col : Name) : Option (Name × Name) :=
  stubs.findSome? fun s =>
    if (s ++ sep).isPrefixOf col then some (s, col.drop (s ++ sep).length) else none

/-- Period labels found in the column names, lines 912-922. -/
def wideLabels (sep : Name) (stubs : List Name) (cols : List Name) : List Name :=
  (cols.filterMap fun c => (matchStub sep stubs c).map Prod.snd).dedup

/-- `wide_to_panel`, `core/panel.py:857-955`.  `cast` is the conversion chosen at lines 924-933
(int, else float, else str).  `none` is a polars error: a constant column with the name of a stub is
selected twice (lines 942-950), or there is no frame to concatenate (line 954).  The loop order over labels
is irrelevant because of the final sort (ties = equal id and cast label). -/
def wideToPanel (cast : Name → τ) (sep : Name) (stubs : List Name) (w : Wide ι β) :
    Option (List (Row ι τ (Name → Option β))) :=
  let labels := wideLabels sep stubs w.cols
  let consts := w.cols.filter fun c => (matchStub sep stubs c).isNone
  if labels = [] ∨ ∃ c ∈ consts, c ∈ stubs then none
  else some <| sortIdT <| labels.flatMap fun p => w.rows.map fun uf =>
    ⟨uf.1, cast p, fun c =>
      if c ∈ stubs then (if c ++ sep ++ p ∈ w.cols then uf.2 (c ++ sep ++ p) else none)
      else if c ∈ consts then uf.2 c else none⟩

end Reshape

end Verif.Panel
