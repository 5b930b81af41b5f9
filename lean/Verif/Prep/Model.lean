import Verif.Panel.Model
import Mathlib.Data.List.Sort
import Mathlib.Order.WithBot
import Mathlib.Algebra.Order.Monoid.Unbundled.WithTop

/-!
# Preprocessing pipeline of `att_gt`: executable model

Models `moderndid/core/preprocess/transformers.py` (the DID pipeline, lines 1122-1136) and
`moderndid/core/preprocess/tensors.py`.

An observation is a panel row whose payload is a cohort (`WithTop ℤ`; `⊤` is the float `inf` =
`NEVER_TREATED_VALUE`) and the remaining columns.  Periods and cohorts are integers: the code allows floats,
but only compares them and adds the integer `anticipation`, and every property below is stated for any
integers.  Rows with nulls are assumed dropped (`MissingDataHandler`, lines 60-91).
-/

namespace Verif.Prep

open Verif.Panel

variable {ι β : Type*}

/-- An observation: unit id, period, (cohort, other columns). -/
abbrev Obs (ι β : Type*) := Row ι ℤ (WithTop ℤ × β)

/-- The cohort column `gname`. -/
def cohort (r : Obs ι β) : WithTop ℤ := r.val.1

/-- A finite cohort as an integer (`[g for g in glist if np.isfinite(g)]`, `transformers.py:192,375`). -/
def finitePart (g : WithTop ℤ) : Option ℤ := WithTop.recTopCoe none some g

/-- Replace the cohort column. -/
def setCohort (r : Obs ι β) (g : WithTop ℤ) : Obs ι β := ⟨r.id, r.t, (g, r.val.2)⟩

/-- `WeightNormalizer`, `transformers.py:94-104`, on the weight column. -/
def normalizeWeights {K : Type*} [DivisionRing K] (w : List K) : List K :=
  let mean := w.sum / (w.length : K)
  w.map fun x => x / mean

/-- `TreatmentEncoder` on one value, `transformers.py:131-145`. -/
def encodeCohort (last : ℤ) (g : WithTop ℤ) : WithTop ℤ :=
  let g1 := if g = 0 then ⊤ else g
  if (last : WithTop ℤ) < g1 then ⊤ else g1

/-- `TreatmentEncoder`, `transformers.py:122-147` (an empty frame raises in the code; here it is returned). -/
def encode (df : List (Obs ι β)) : List (Obs ι β) :=
  match (df.map Row.t).max? with
  | none => df
  | some last => df.map fun r => setCohort r (encodeCohort last (cohort r))

/-- `EarlyTreatmentFilter` with an id column, `transformers.py:150-167`. -/
def earlyFilter [DecidableEq ι] (anticip : ℤ) (df : List (Obs ι β)) : List (Obs ι β) :=
  match (df.map Row.t).min? with
  | none => df
  | some first =>
    let early := (df.filter fun r => cohort r ≤ ((first + anticip : ℤ) : WithTop ℤ)).map Row.id
    df.filter fun r => r.id ∉ early

/-- Comparison group option. -/
inductive ControlGroup | neverTreated | notYetTreated
deriving DecidableEq, Repr

/-- `ControlGroupCreator`, `transformers.py:177-214`. -/
def controlGroup (cg : ControlGroup) (anticip : ℤ) (df : List (Obs ι β)) : List (Obs ι β) :=
  if ⊤ ∈ df.map cohort then df
  else match ((df.map cohort).filterMap finitePart).max? with
    | none => df
    | some latest =>
      let df' := df.filter fun r => r.t < latest - anticip
      match cg with
      | .neverTreated => df'.map fun r => if cohort r = (latest : WithTop ℤ) then setCohort r ⊤ else r
      | .notYetTreated => df'

/-- `PanelBalancer`, `transformers.py:217-245`: the same row-count rule as `make_balanced_panel`;
`none` is the `ValueError` when nothing is left. -/
def balance [DecidableEq ι] (df : List (Obs ι β)) : Option (List (Obs ι β)) :=
  let out := makeBalanced df
  if out.isEmpty then none else some out

/-- Order of `DataSorter`, `transformers.py:107-119`: period, cohort, id. -/
def leTGI [LinearOrder ι] (a b : Obs ι β) : Prop :=
  a.t < b.t ∨ (a.t = b.t ∧ (cohort a < cohort b ∨ (cohort a = cohort b ∧ a.id ≤ b.id)))

instance [LinearOrder ι] : DecidableRel (leTGI (ι := ι) (β := β)) := fun a b => by
  unfold leTGI; infer_instance

/-- `DataSorter`. -/
def sortTGI [LinearOrder ι] (df : List (Obs ι β)) : List (Obs ι β) := df.insertionSort leTGI

/-- The DID pipeline for a panel with `allow_unbalanced_panel=False`, `transformers.py:1122-1136`
(column selection and null handling are outside the model). -/
def pipeline [LinearOrder ι] (cg : ControlGroup) (anticip : ℤ) (df : List (Obs ι β)) :
    Option (List (Obs ι β)) :=
  (balance (controlGroup cg anticip (earlyFilter anticip (encode df)))).map sortTGI

/-! ## tensors.py -/

/-- First-occurrence order of distinct values: `group_by(..., maintain_order=True)`. -/
def uniqStable {α : Type*} [DecidableEq α] (l : List α) : List α := l.reverse.dedup.reverse

/-- `config.time_periods = sorted(unique t)`, `transformers.py:372,379`. -/
def periodsOf (df : List (Obs ι β)) : List ℤ := (df.map Row.t).dedup.insertionSort (· ≤ ·)

/-- `config.treated_groups = sorted finite cohorts`, `transformers.py:373-381`. -/
def groupsOf (df : List (Obs ι β)) : List ℤ :=
  ((df.map cohort).filterMap finitePart).dedup.insertionSort (· ≤ ·)

/-- `config.id_count`, `transformers.py:377,383`. -/
def idCount [DecidableEq ι] (df : List (Obs ι β)) : ℕ := nUnique (df.map Row.id)

/-- `PanelTensorFactory.create_outcomes_tensor`, `tensors.py:109-119`: consecutive slices of `id_count` rows. -/
def outcomesTensor {K : Type*} [DecidableEq ι] (y : β → K) (df : List (Obs ι β)) : List (List K) :=
  (List.range (periodsOf df).length).map fun i =>
    ((df.drop (i * idCount df)).take (idCount df)).map fun r => y r.val.2

/-- `create_time_invariant_data`, `tensors.py:36-61`: first row of each id, in order of appearance. -/
def timeInvariant [DecidableEq ι] (df : List (Obs ι β)) : List (Obs ι β) :=
  (uniqStable (df.map Row.id)).filterMap fun u => df.find? fun r => r.id = u

end Verif.Prep
