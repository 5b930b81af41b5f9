import Verif.Prep.Cohort
import Mathlib.Algebra.Field.Basic

/-!
# Group-time estimation loop: executable model

Models `moderndid/did/compute_att_gt.py` for the panel branch (and the influence-function bookkeeping of the
unbalanced branch).  Numbers are elements of a field `K`; NaN is a separate outcome of the 2x2 estimator.
-/

namespace Verif.AttGt

open Verif.Prep

/-- `BasePeriod`, `core/preprocess/constants.py:21-25`. -/
inductive BasePeriod | varying | universal
deriving DecidableEq, Repr

/-- `time_factor`, `compute_att_gt.py:132,414`. -/
def timeFactor : BasePeriod → ℕ
  | .varying => 1
  | .universal => 0

/-- `np.where(time_periods < bound)[0][-1]`, `compute_att_gt.py:135-138,145-147,157`. -/
def lastBefore (periods : List ℤ) (bound : ℤ) : Option ℕ :=
  ((periods.zipIdx.filter fun p => p.1 < bound).getLast?).map Prod.snd

/-- What is decided before any data is touched. -/
inductive Plan
  /-- `return None` -/
  | skip
  /-- `pre_treatment_idx` stays `None` and the later `max(time_idx, None)` / `outcomes_tensor[None]` raises -/
  | typeError
  /-- estimate against the base period with this index -/
  | run (pre : ℕ)
deriving DecidableEq, Repr

/-- Base-period selection, `compute_att_gt.py:132-164`; `none` if the time index is out of range. -/
def planCell (bp : BasePeriod) (periods : List ℤ) (anticip g : ℤ) (timeIdx : ℕ) : Option Plan :=
  match periods[timeIdx + timeFactor bp]? with
  | none => none
  | some t => some (match bp with
    | .universal => match lastBefore periods (g - anticip) with
      | none => .typeError
      | some p => if periods[p]? = some t then .skip else .run p
    | .varying =>
      if g ≤ t then match lastBefore periods (g - anticip) with
        | none => .skip
        | some p => .run p
      else .run timeIdx)

/-- Result of a 2x2 estimator call: an exception that is caught (`compute_att_gt.py:196-204`), a NaN estimate, or an
estimate with its influence values (one per observation passed in). -/
inductive Est (K : Type*)
  | failed
  | nan
  | val (att : K) (inf : List K)

variable {K : Type*} [Field K]

/-- `x[valid_obs]`, `compute_att_gt.py:333-336`. -/
def selectValid {γ : Type*} (idx : List (Option Bool)) (x : List γ) : List γ :=
  ((idx.zip x).filter fun p => p.1.isSome).map Prod.snd

/-- `influence_func = zeros(n); influence_func[valid_obs] = c * inf`, `compute_att_gt.py:363-364`. -/
def scatter (c : K) : List (Option Bool) → List K → List K
  | [], _ => []
  | none :: l, inf => 0 :: scatter c l inf
  | some _ :: l, x :: inf => c * x :: scatter c l inf
  | some _ :: l, [] => 0 :: scatter c l []

/-- Number of valid observations, `valid_obs.sum()`. -/
def nValid (idx : List (Option Bool)) : ℕ := (idx.filter Option.isSome).length

/-- Rescaled influence function of a panel or plain cross-section cell, `compute_att_gt.py:363-364,400-401`. -/
def cellIF (idx : List (Option Bool)) (inf : List K) : List K :=
  scatter ((idx.length : K) / (nValid idx : K)) idx inf

/-- Influence function of an unbalanced-panel cell, `compute_att_gt.py:389-398`: row influence scaled by
`id_count / n_valid`, then summed over the rows of each unit (`unique_ids` in the given order). -/
def cellIFUnbalanced {ι : Type*} [DecidableEq ι] (idCount : ℕ) (uniqueIds : List ι) (rowid : List ι)
    (idx : List (Option Bool)) (inf : List K) : List K :=
  let long := scatter ((idCount : K) / (nValid idx : K)) idx inf
  uniqueIds.map fun u => (((rowid.zip long).filter fun p => p.1 = u).map Prod.snd).sum

/-- A panel prepared for estimation (`DIDData`): periods, treated cohorts, cohort table, outcome vectors, weights. -/
structure Data (K : Type*) where
  cg : ControlGroup
  anticip : ℤ
  periods : List ℤ
  groups : List ℤ
  counts : List (WithTop ℤ × ℕ)
  nUnits : ℕ
  outcomes : List (List K)
  weights : List K

/-- A 2x2 estimator without covariates: post outcomes, base outcomes, treatment indicators, weights. -/
abbrev Estimator (K : Type*) := List K → List K → List Bool → List K → Est K

/-- Treatment indicators of the valid observations. -/
def treatOf (idx : List (Option Bool)) : List Bool := idx.filterMap id

/-- Outcome of one cell before the reporting step. -/
inductive CellRun (K : Type*)
  | none_
  | typeError
  | nan
  | val (att : K) (inf : List K)

/-- `run_att_gt_estimation` + `run_drdid` for a panel without covariates, `compute_att_gt.py:113-204,306-366`. -/
def runCell (bp : BasePeriod) (est : Estimator K) (D : Data K) (gIdx timeIdx : ℕ) : CellRun K :=
  match D.groups[gIdx]? with
  | none => .typeError
  | some g => match planCell bp D.periods D.anticip g timeIdx with
    | none => .typeError
    | some .skip => .none_
    | some .typeError => .typeError
    | some (.run pre) =>
      match relevantPeriod D.periods timeIdx pre (timeFactor bp) D.anticip with
      | none => .typeError
      | some relevant =>
        let idx := panelCohortIndex D.cg relevant g D.counts D.nUnits
        if some true ∈ idx ∧ some false ∈ idx then
          match D.outcomes[timeIdx + timeFactor bp]?, D.outcomes[pre]? with
          | some y1, some y0 =>
            match est (selectValid idx y1) (selectValid idx y0) (treatOf idx) (selectValid idx D.weights) with
            | .failed => .none_
            | .nan => .nan
            | .val att inf => .val att (cellIF idx inf)
          | _, _ => .typeError
        else .none_

/-- `ATTgtResult`. -/
structure ATTgt (K : Type*) where
  att : K
  group : ℤ
  year : ℤ
  post : Bool
deriving DecidableEq

/-- `_process_gt_cell_did`, `compute_att_gt.py:406-450`; the outer `none` is an uncaught exception. -/
def processCell (bp : BasePeriod) (est : Estimator K) (D : Data K) (c : ℕ × ℕ) :
    Option (Option (ATTgt K × List K)) :=
  match D.groups[c.1]?, D.periods[c.2 + timeFactor bp]? with
  | some g, some t =>
    let zeros := List.replicate D.nUnits (0 : K)
    match runCell bp est D c.1 c.2 with
    | .typeError => none
    | .none_ => match bp with
      | .universal => some (some (⟨0, g, t, g ≤ t⟩, zeros))
      | .varying => some none
    | .nan => some (some (⟨0, g, t, g ≤ t⟩, zeros))
    | .val att inf => some (some (⟨att, g, t, g ≤ t⟩, inf))
  | _, _ => none

/-- The enumeration of cells, `compute_att_gt.py:78-80`. -/
def cells (bp : BasePeriod) (nGroups nPeriods : ℕ) : List (ℕ × ℕ) :=
  (List.range nGroups).flatMap fun g =>
    (List.range (match bp with | .universal => nPeriods | .varying => nPeriods - 1)).map fun t => (g, t)

/-- One iteration of the collecting loop, `compute_att_gt.py:88-91`. -/
def collectStep {A B : Type*} (acc : List A × List B) (r : Option (A × B)) : List A × List B :=
  match r with
  | some (a, b) => (acc.1 ++ [a], acc.2 ++ [b])
  | none => acc

/-- Collecting the results, `compute_att_gt.py:85-91`: two lists appended to in step. -/
def collect {A B : Type*} (rs : List (Option (A × B))) : List A × List B := rs.foldl collectStep ([], [])

/-- `compute_att_gt` on top of `parallel_map` (by C23 its result is the sequential map),
`compute_att_gt.py:60-110`. -/
def computeAttGt (bp : BasePeriod) (est : Estimator K) (D : Data K) :
    Option (List (ATTgt K) × List (List K)) :=
  ((cells bp D.groups.length D.periods.length).mapM (processCell bp est D)).map collect

end Verif.AttGt
