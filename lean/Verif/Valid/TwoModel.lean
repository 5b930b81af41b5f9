import Verif.Panel.Model
import Mathlib.Data.List.Sort
import Mathlib.Data.Int.Order.Basic

/-!
# Two-period pipelines: executable model

`drdid`/`ordid`/`ipwdid` (`DataTransformerPipeline.get_two_period_pipeline` and
`_build_two_period_did_data`) and the two-period `ddd` (`get_ddd_pipeline` and `_build_ddd_data`) on
panel data.  Rows are complete (both pipelines remove or reject rows with nulls before these steps);
the payload `β` holds all the other columns.  Covariate processing is not modelled.
-/

namespace Verif.Valid

open Verif.Panel

variable {ι β : Type*} [LinearOrder ι]

/-- `df.sort(idname)`. -/
def leId (a b : Row ι ℤ β) : Prop := a.id ≤ b.id

instance : DecidableRel (leId (ι := ι) (β := β)) := fun a b => by unfold leId; infer_instance

/-- `df.sort([idname, tname])`. -/
def leIT (a b : Row ι ℤ β) : Prop := a.id < b.id ∨ (a.id = b.id ∧ a.t ≤ b.t)

instance : DecidableRel (leIT (ι := ι) (β := β)) := fun a b => by unfold leIT; infer_instance

/-- `sorted(df[tname].unique().to_list())`. -/
def sortedTimes (df : List (Row ι ℤ β)) : List ℤ := (df.map Row.t).dedup.insertionSort (· ≤ ·)

/-- Rows of one period. -/
def atTime (df : List (Row ι ℤ β)) (t : ℤ) : List (Row ι ℤ β) := df.filter fun r => r.t = t

/-- Ids of the inner join of the post and the pre rows on the unit, `builders.py:291-295`. -/
def joinIds (post pre : List (Row ι ℤ β)) : List ι :=
  post.flatMap fun r => (pre.filter fun s => s.id = r.id).map Row.id

/-- Rows whose unit is in `ids`. -/
def ofUnits (ids : List ι) (df : List (Row ι ℤ β)) : List (Row ι ℤ β) := df.filter fun r => r.id ∈ ids

/-- The arrays handed to the estimator: the post and the pre rows in order, and `n_units`. -/
structure TwoData (ι β : Type*) where
  post : List (Row ι ℤ β)
  pre : List (Row ι ℤ β)
  nUnits : ℕ

/-- `PrePostInvarianceChecker`, `transformers.py:484-519`: on the units present in both periods, the
column `key` (treatment, weight) must be the same list before and after. -/
def invariant {γ : Type*} [DecidableEq γ] (key : β → γ) (df : List (Row ι ℤ β)) (t0 t1 : ℤ) : Bool :=
  let pre := (atTime df t0).insertionSort leId
  let post := (atTime df t1).insertionSort leId
  let common := (pre.map Row.id).filter fun u => u ∈ post.map Row.id
  decide (((ofUnits common pre).insertionSort leId).map (fun r => key r.val)
    = ((ofUnits common post).insertionSort leId).map (fun r => key r.val))

/-- `PrePostPanelBalancer` (`transformers.py:465-481`, the row-count rule of `make_balanced_panel`),
`PrePostInvarianceChecker` and `_build_two_period_did_data` (`builders.py:257-309`).  `none`: an
exception. -/
def twoBuild {γ : Type*} [DecidableEq γ] (key : β → γ) (df : List (Row ι ℤ β)) : Option (TwoData ι β) :=
  let b := makeBalanced df
  match sortedTimes b with
  | [t0, t1] =>
    if invariant key b t0 t1 then
      let d := b.insertionSort leIT
      let post := atTime d t1
      let pre := atTime d t0
      let common := joinIds post pre
      some ⟨(ofUnits common post).insertionSort leId, (ofUnits common pre).insertionSort leId, common.length⟩
    else none
  | _ => none

/-- `create_ddd_subgroups`, `core/preprocess/utils.py:434-451`. -/
def dddSubgroup {γ : Type*} [DecidableEq γ] (treatVal : γ) (g : γ) (p : ℤ) : ℕ :=
  if g = treatVal ∧ p = 1 then 4 else if g = treatVal ∧ ¬ p = 1 then 3 else if p = 1 then 2 else 1

/-- Numbers of distinct units per subgroup present, `transformers.py:1091-1092`. -/
def dddCounts (sg : β → ℕ) (df : List (Row ι ℤ β)) : List (ℕ × ℕ) :=
  (df.map fun r => sg r.val).dedup.map fun s =>
    (s, nUnique ((df.filter fun r => sg r.val = s).map Row.id))

/-- `DDDPanelBalancer`, `DDDPostIndicatorCreator`, `DDDSubgroupCreator` with `validate_subgroup_sizes`
(`transformers.py:1020-1095`, `utils.py:454-458`) and the row selection of `_build_ddd_data`
(`builders.py:324-342`).  `gOf`, `pOf` are the cohort and the partition columns. -/
def dddBuild (gOf : β → ℤ) (pOf : β → ℤ) (df : List (Row ι ℤ β)) : Option (TwoData ι β) :=
  let b := makeBalanced (df.insertionSort leIT)
  if b.isEmpty then none
  else match sortedTimes b, (b.map fun r => gOf r.val).dedup.insertionSort (· ≤ ·) with
    | _ :: t1 :: _, _ :: tv :: _ =>
      if (dddCounts (fun v => dddSubgroup tv (gOf v) (pOf v)) b).all fun c => decide (5 ≤ c.2) then
        let pre := b.filter fun r => ¬ r.t = t1
        some ⟨b.filter fun r => r.t = t1, pre, pre.length⟩
      else none
    | _, _ => none

/-- Outcome changes as used by the estimators: `y1 - y0` entry by entry. -/
def changes {K : Type*} [Sub K] (y : β → K) (o : TwoData ι β) : List K :=
  List.zipWith (fun r s => y r.val - y s.val) o.post o.pre

end Verif.Valid
