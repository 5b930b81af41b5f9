import Verif.Prep.Model
import Mathlib.Algebra.Order.Field.Basic
import Mathlib.Data.Int.Interval

set_option linter.unusedSectionVars false

/-!
# Continuous-treatment difference-in-differences: frames, cells and subsets

Models the ContDID preprocessing pipeline (`moderndid/core/preprocess/transformers.py:1139-1153`), the construction of
the cell list (`moderndid/didcont/estimation/process_panel.py:627-740`), the two-by-two subsets
(`moderndid/didcont/cont_did.py:667-703`), the first difference (`moderndid/core/preprocess/utils.py:61-82`), the
placement of cell influence values in the global matrix (`process_panel.py:219-282`), the block bootstrap sample
(`didcont/estimation/bootstrap.py:503-535`) and `setup_pte` (`process_panel.py:345-441`).

Rows with nulls are assumed dropped (`MissingDataHandler`); the two payload columns are the outcome and the dose.
-/

namespace Verif.Cont

open Verif.Panel Verif.Prep

variable {ι K : Type*}

/-- A row of the continuous-treatment frame: id, period, (cohort, (outcome, dose)). -/
abbrev Rec (ι K : Type*) := Obs ι (K × K)

/-- The outcome column. -/
def outcome (r : Rec ι K) : K := r.val.2.1

/-- The dose column. -/
def dose (r : Rec ι K) : K := r.val.2.2

/-- Replace the dose column. -/
def setDose (r : Rec ι K) (d : K) : Rec ι K := ⟨r.id, r.t, (r.val.1, (r.val.2.1, d))⟩

/-- `TimePeriodRecoder` on one value: `time_map = {t: i + 1}`, `transformers.py:279-280`. -/
def recodeTime (ps : List ℤ) (t : ℤ) : ℤ := (ps.idxOf t : ℤ) + 1

/-- `TimePeriodRecoder`, `transformers.py:270-285`: only the period column is renumbered. -/
def recode (df : List (Rec ι K)) : List (Rec ι K) :=
  df.map fun r => ⟨r.id, recodeTime (periodsOf df) r.t, r.val⟩

/-- Rows kept by `EarlyTreatmentGroupFilter`, `transformers.py:303-313`. -/
def lateEnough (minValid : ℤ) (r : Rec ι K) : Bool := decide ((minValid : WithTop ℤ) ≤ cohort r)

/-- `EarlyTreatmentGroupFilter`, `transformers.py:288-315`. -/
def earlyGroups (req anticip : ℤ) (df : List (Rec ι K)) : List (Rec ι K) :=
  match (periodsOf df).head? with
  | none => df
  | some first => df.filter (lateEnough (req + anticip + first))

/-- Zero dose for never-treated units, `transformers.py:327-332`. -/
def zeroNever [Zero K] (r : Rec ι K) : Rec ι K := if cohort r = ⊤ then setDose r 0 else r

/-- A post-treatment row of a treated unit without a dose, `transformers.py:334-339`. -/
def invalidDose [Zero K] [DecidableEq K] (r : Rec ι K) : Bool :=
  decide (cohort r ≠ ⊤) && decide (cohort r ≤ (r.t : WithTop ℤ)) && decide (dose r = 0)

/-- `DoseValidatorTransformer`, `transformers.py:318-348`. -/
def validateDose [Zero K] [DecidableEq K] (df : List (Rec ι K)) : List (Rec ι K) :=
  (df.map zeroNever).filter fun r => !invalidDose r

/-- The ContDID pipeline, `transformers.py:1139-1153`. -/
def contPipeline [LinearOrder ι] [Zero K] [DecidableEq K] (req anticip : ℤ) (df : List (Rec ι K)) :
    Option (List (Rec ι K)) :=
  (balance (validateDose (earlyGroups req anticip (recode (encode df))))).map sortTGI

/-! ### The list of cells -/

/-- `t_list`, `process_panel.py:682-686`. -/
def tList (universal : Bool) (req : ℕ) (ps : List ℤ) : List ℤ := if universal then ps else ps.drop req

/-- `min_t_for_g`, `process_panel.py:684,687`; `none` is `inf`. -/
def minT (universal : Bool) (ts : List ℤ) : Option ℤ := if universal then ts[1]? else ts.head?

/-- `g_list`, `process_panel.py:689-690`. -/
def gList (universal : Bool) (anticip : ℤ) (ts gs : List ℤ) : List ℤ :=
  gs.filter fun g => decide (g ∈ ts) && (minT universal ts).any fun m => decide (m + anticip ≤ g)

/-- The cells visited by `compute_pte`, `process_panel.py:256-260`: periods outermost; `(cohort, period)`. -/
def cellList (universal : Bool) (req : ℕ) (anticip : ℤ) (ps gs : List ℤ) : List (ℤ × ℤ) :=
  (tList universal req ps).flatMap fun t => (gList universal anticip (tList universal req ps) gs).map fun g => (g, t)

/-- Cells estimated from a preprocessed frame (`config.time_periods`, `config.treated_groups`). -/
def cellsOf (universal : Bool) (req : ℕ) (anticip : ℤ) (df : List (Rec ι K)) : List (ℤ × ℤ) :=
  cellList universal req anticip (periodsOf df) (groupsOf df)

/-- Cells estimated by `cont_did` from the input frame; `none` is a preprocessing error. -/
def contCells [LinearOrder ι] [Zero K] [DecidableEq K] (universal : Bool) (req : ℕ) (anticip : ℤ)
    (df : List (Rec ι K)) : Option (List (ℤ × ℤ)) :=
  (contPipeline (req : ℤ) anticip df).map (cellsOf universal req anticip)

/-- Cohorts removed after preprocessing (`groups_to_drop`), `process_panel.py:692-693`. -/
def dropGroups (req anticip : ℤ) (df : List (Rec ι K)) : List (Rec ι K) :=
  df.filter fun r => !(decide (1 ≤ cohort r) && decide (cohort r ≤ ((req + anticip : ℤ) : WithTop ℤ)))

/-! ### The two-by-two subset of a cell -/

/-- Base period of a cell, `cont_did.py:677-682`. -/
def basePeriod (universal : Bool) (anticip g tp : ℤ) : ℤ :=
  if !universal && decide (tp < g - anticip) then tp - 1 else g - anticip - 1

/-- Units entering a cell, `cont_did.py:684-687`. -/
def unitIn (cg : ControlGroup) (g tp : ℤ) (r : Rec ι K) : Bool :=
  match cg with
  | .notYetTreated => decide (cohort r = (g : WithTop ℤ)) || decide ((tp : WithTop ℤ) < cohort r)
  | .neverTreated => decide (cohort r = (g : WithTop ℤ)) || decide (cohort r = ⊤)

/-- `D * (G == g)`, `cont_did.py:696`. -/
def maskDose [Zero K] (g : ℤ) (r : Rec ι K) : Rec ι K :=
  setDose r (if cohort r = (g : WithTop ℤ) then dose r else 0)

/-- `cont_two_by_two_subset`, `cont_did.py:667-703` (the rows; the `name` column is `post` iff `t = tp`). -/
def subset [Zero K] (universal : Bool) (cg : ControlGroup) (anticip g tp : ℤ) (df : List (Rec ι K)) :
    List (Rec ι K) :=
  ((df.filter (unitIn cg g tp)).filter fun r =>
    decide (r.t = tp) || decide (r.t = basePeriod universal anticip g tp)).map (maskDose g)

/-- Order of `get_first_difference`: id, then period, `core/preprocess/utils.py:81`. -/
def leIT [LinearOrder ι] (a b : Rec ι K) : Prop := a.id < b.id ∨ (a.id = b.id ∧ a.t ≤ b.t)

instance [LinearOrder ι] : DecidableRel (leIT (ι := ι) (K := K)) := fun a b => by
  unfold leIT; infer_instance

/-- `shift(1).over(idname)`: the preceding row of the same unit, `core/preprocess/utils.py:82`. -/
def prevOf [DecidableEq ι] (before : List (Rec ι K)) (r : Rec ι K) : Option (Rec ι K) :=
  (before.filter fun q => q.id = r.id).getLast?

/-- The `dy` column, row by row; `none` is null. -/
def dyFrom [DecidableEq ι] [Sub K] : List (Rec ι K) → List (Rec ι K) → List (Rec ι K × Option K)
  | _, [] => []
  | before, r :: rs => (r, (prevOf before r).map fun p => outcome r - outcome p) :: dyFrom (before ++ [r]) rs

/-- `post_data`: the rows of the cell's period with their first difference, `cont_did.py:594-598`. -/
def cellData [LinearOrder ι] [Zero K] [Sub K] (universal : Bool) (cg : ControlGroup) (anticip g tp : ℤ)
    (df : List (Rec ι K)) : List (Rec ι K × Option K) :=
  (dyFrom [] ((subset universal cg anticip g tp df).insertionSort leIT)).filter fun e => decide (e.1.t = tp)

/-! ### Placement of influence values -/

/-- `this_inf_func = zeros; this_inf_func[disidx] = values`, `process_panel.py:278-279`. -/
def scatter [Zero K] : List Bool → List K → List K
  | [], _ => []
  | false :: ms, vs => 0 :: scatter ms vs
  | true :: ms, [] => 0 :: scatter ms []
  | true :: ms, v :: vs => v :: scatter ms vs

/-- The column of one cell: `allIds` is `data["id"].unique()` in whatever order polars returns it, `sub` the units of
the cell with their influence values in the order of `post_data`, `cont_did.py:698-701`, `process_panel.py:276-280`. -/
def placeInfluence [DecidableEq ι] [Zero K] (allIds : List ι) (sub : List (ι × K)) : List K :=
  scatter (allIds.map fun u => decide (u ∈ sub.map Prod.fst)) (sub.map Prod.snd)

/-! ### Block bootstrap -/

/-- `block_boot_sample`, `bootstrap.py:503-535`: `drawn` is the outcome of `rng.choice(unique_ids, n, replace=True)`;
the `k`-th drawn unit's rows are copied under the new identifier `k`. -/
def blockSample [DecidableEq ι] {τ β : Type*} (df : List (Row ι τ β)) (drawn : List ι) : List (Row ℕ τ β) :=
  drawn.zipIdx.flatMap fun p => (df.filter fun r => r.id = p.1).map fun r => ⟨p.2, r.t, r.val⟩

/-! ### `setup_pte` -/

/-- `np.sort(np.unique(G))[1:]`, `process_panel.py:387`. -/
def setupGroups (gs : List (WithTop ℤ)) : List (WithTop ℤ) := (gs.dedup.insertionSort (· ≤ ·)).drop 1

/-- `recoded_groups`: `_map_to_idx([g for g in original_groups if g in time_map])`, `process_panel.py:398`. -/
def setupRecoded (ps : List ℤ) (gs : List (WithTop ℤ)) : List ℤ :=
  (((setupGroups gs).filterMap finitePart).filter (· ∈ ps)).map (recodeTime ps)

end Verif.Cont
