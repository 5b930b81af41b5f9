import Verif.Dist.Model
import Verif.AttGt.Model

set_option linter.unusedSectionVars false

/-!
# Distributed `att_gt`: the driver around the cells

Models `moderndid/dask/_did_mp.py:180-300, 437-800` (`moderndid/spark/_did_mp.py` runs the same steps) and the parts of
`moderndid/dask/_did_streaming.py` and `moderndid/dask/_utils.py` that choose the rows of a cell and store its influence
values.  The estimate of a cell is modelled in `Dist.Model` (C46); here it is an argument.
-/

namespace Verif.Dist.Driver

open Verif.AttGt Verif.Prep

/-! ## Which cells -/

/-- Third to last entries of a cell specification, `_did_mp.py:204-231`. -/
inductive Action | skip | zero | compute
deriving DecidableEq, Repr

/-- `(g, t, pret, post_treat, action)`. -/
structure Spec where
  g : ℤ
  t : ℤ
  pret : Option ℤ
  post : Bool
  action : Action
deriving DecidableEq, Repr

/-- `tlist[tlist < bound][-1]`, `_did_mp.py:210-214, 221-225`. -/
def preBefore (tlist : List ℤ) (bound : ℤ) : Option ℤ := (tlist.filter (fun s => decide (s < bound))).getLast?

/-- Body of the loop over periods, `_did_mp.py:206-231`; `now` is `tlist[t_idx]` and `t` is `tlist[t_idx + tfac]`. -/
def specOf (bp : BasePeriod) (tlist : List ℤ) (anticip g now t : ℤ) : Spec :=
  match bp with
  | .universal => match preBefore tlist (g - anticip) with
    | none => ⟨g, t, none, false, .skip⟩
    | some p => if p = t then ⟨g, t, some p, false, .zero⟩ else ⟨g, t, some p, decide (g ≤ t), .compute⟩
  | .varying =>
    if g ≤ t then match preBefore tlist (g - anticip) with
      | none => ⟨g, t, none, true, .skip⟩
      | some p => ⟨g, t, some p, true, .compute⟩
    else ⟨g, t, some now, false, .compute⟩

/-- `glist`, `_did_mp.py:132`: positive finite cohorts in increasing order. -/
def glist (raw : List (WithTop ℤ)) : List ℤ :=
  ((raw.filterMap finitePart).filter (fun g => decide (0 < g))).insertionSort (· ≤ ·)

/-- `cell_specs`, `_did_mp.py:204-231`. -/
def cellSpecs (bp : BasePeriod) (tlist : List ℤ) (anticip : ℤ) (gs : List ℤ) : List Spec :=
  gs.flatMap fun g => (List.range (tlist.length - timeFactor bp)).map fun i =>
    specOf bp tlist anticip g (tlist.getD i 0) (tlist.getD (i + timeFactor bp) 0)

/-! ## Which units -/

/-- Group filter and treatment indicator of a cell, `_did_streaming.py:530-533, 631-640`, `_utils.py:179` and
`_did_partition.py:24`: `none` is a unit filtered out.  The column is compared as it is in the data. -/
def distRole (cg : ControlGroup) (g t pret : ℤ) (G : WithTop ℤ) : Option Bool :=
  let keep := match cg with
    | .neverTreated => decide (G = 0 ∨ G = (g : WithTop ℤ))
    | .notYetTreated => decide (G = 0 ∨ ((max t pret : ℤ) : WithTop ℤ) < G ∨ G = (g : WithTop ℤ))
  if keep then some (decide (G = (g : WithTop ℤ))) else none

/-- Periods whose outcomes a never-treated cohort pivot joins, `_utils.py:168-175`. -/
def pivotTimes (specs : List Spec) : List ℤ :=
  (((specs.filter fun s => s.action = .compute).flatMap fun s => s.t :: s.pret.toList).dedup).insertionSort (· ≤ ·)

/-- Units in a cell of the never-treated path: the inner joins keep units observed in every pivot period,
`_utils.py:188-207`.  `obs u s` says that unit `u` has a row in period `s`. -/
def inPivot (specs : List Spec) (obs : ℤ → Bool) : Bool := (pivotTimes specs).all obs

/-- Units in a cell of the not-yet-treated path: post rows joined with base rows, `_did_streaming.py:648-652`. -/
def inMerge (t pret : ℤ) (obs : ℤ → Bool) : Bool := obs t && obs pret

/-- Period whose covariates enter a cell: the first pivot period on the never-treated path (`_utils.py:188`), the period
of the cell on the not-yet-treated path (`_did_streaming.py:648`). -/
def distCovPeriod (cg : ControlGroup) (specs : List Spec) (t : ℤ) : Option ℤ :=
  match cg with
  | .neverTreated => (pivotTimes specs).head?
  | .notYetTreated => some t

/-- Period whose covariates enter a cell on one machine, `compute_att_gt.py:183`. -/
def localCovPeriod (periods : List ℤ) (timeIdx preIdx : ℕ) : Option ℤ := periods[min preIdx timeIdx]?

/-! ## Influence values -/

variable {K : Type*} [Field K]

/-- `np.searchsorted(unique_ids, id)` on sorted ids. -/
def rowOf (uniqueIds : List ℤ) (u : ℤ) : ℕ := (uniqueIds.takeWhile (fun v => decide (v < u))).length

/-- Store one value, `_did_streaming.py:200-203`. -/
def storeOne (uniqueIds : List ℤ) (scale : K) (col : List K) (p : ℤ × K) : List K :=
  if uniqueIds[rowOf uniqueIds p.1]? = some p.1 then col.set (rowOf uniqueIds p.1) (scale * p.2) else col

/-- One finished partition, `_did_streaming.py:196-204`. -/
def storePart (uniqueIds : List ℤ) (scale : K) (col : List K) (part : List (ℤ × K)) : List K :=
  part.foldl (storeOne uniqueIds scale) col

/-- The column of a panel cell; `done` lists the partitions in the order in which they finish (`as_completed`),
`_did_streaming.py:195-204`. -/
def panelColumn (uniqueIds : List ℤ) (scale : K) (done : List (List (ℤ × K))) : List K :=
  done.foldl (storePart uniqueIds scale) (List.replicate uniqueIds.length 0)

/-- `offsets = cumsum([0, *lengths[:-1]])`, `_did_streaming.py:556-557`, and
`ids = arange(offset, offset + n)`, `_did_partition.py:335`: rows of the cell are numbered consecutively. -/
def rcNumber (parts : List (List K)) : List (List (ℕ × K)) :=
  (parts.foldl (fun acc p => (acc.1 ++ [p.mapIdx fun i v => (acc.2 + i, v)], acc.2 + p.length))
    (([] : List (List (ℕ × K))), 0)).1

/-- The column of a repeated cross-section cell, `_did_streaming.py:455-472`. -/
def rcColumn (nObs : ℕ) (scale : K) (done : List (List (ℕ × K))) : List K :=
  done.foldl (fun col part => part.foldl (fun c p => c.set p.1 (scale * p.2)) col) (List.replicate nObs 0)

/-! ## Assembling the result -/

/-- Estimates in order of the counters, `_did_mp.py:275-280, 516-566`: `est` gives the estimate of a computed cell, `none`
if it fails. -/
def reported (specs : List Spec) (est : Spec → Option K) : List (ℕ × Spec × K) :=
  specs.zipIdx.filterMap fun p => match p.1.action with
    | .skip => none
    | .zero => some (p.2, p.1, 0)
    | .compute => (est p.1).map fun a => (p.2, p.1, a)

/-- `non_skip_counters[:n_valid]`, `_did_mp.py:296-298`: the matrix columns shown with the reported estimates. -/
def shownColumns (specs : List Spec) (est : Spec → Option K) : List ℕ :=
  ((specs.zipIdx.filter fun p => decide (p.1.action ≠ .skip)).map Prod.snd).take (reported specs est).length

/-- `streaming_did_cell_single_control`, `_did_streaming.py:145-151` (Dask): nothing is estimated unless the first partition
has rows; otherwise the statistics of all partitions are combined. -/
def daskCell {R A : Type*} (combine : List (List R) → Option A) (parts : List (List R)) : Option A :=
  match parts with
  | [] => none
  | p :: _ => if p.isEmpty then none else combine parts

/-- `prepare_did_cell_partitions` and `streaming_did_cell_single_control` on Spark
(`spark/_did_streaming.py:151-157`): empty chunks are dropped first. -/
def sparkCell {R A : Type*} (combine : List (List R) → Option A) (parts : List (List R)) : Option A :=
  daskCell combine (parts.filter fun p => !p.isEmpty)

end Verif.Dist.Driver
