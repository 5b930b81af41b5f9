import Verif.AttGt.Props2
import Verif.AttGt.Capstone
import Verif.Agg.Model
import Mathlib.Data.List.Sort

/-!
# C270, C271, C272: which unit an influence value belongs to outside balanced panels

Models the repeated-cross-section branch of `moderndid/did/compute_att_gt.py` (180-204, 286-304, 366-450), the table of
units that `att_gt` hands to `aggte` and to the clustered bootstrap (`core/preprocess/tensors.py:35-60`,
`did/att_gt.py:411-436,505-513`), the standard error of `did/att_gt.py:391-393`, and the choice of data format
(`core/preprocess/transformers.py:385-396`, `core/preprocess/tensors.py:147-225`).
-/

set_option linter.unusedSectionVars false
set_option linter.unusedSimpArgs false

namespace Verif.AttGt

open Verif.Prep Verif.Panel

variable {ι β K : Type*} [Field K]

section Model
variable [LinearOrder ι]

/-- `np.unique(rowid)`, `compute_att_gt.py:394`: the distinct ids in increasing order. -/
def sortedIds (s : List (Obs ι β)) : List ι := (s.map Row.id).dedup.insertionSort (· ≤ ·)

/-- `RepeatedCrossSectionHandler` without an id column, `transformers.py:248-268`: the row number becomes the id. -/
def numberRows (rows : List (ℤ × (WithTop ℤ × β))) : List (Obs ℕ β) :=
  rows.zipIdx.map fun p => ⟨p.2, p.1.1, p.1.2⟩

/-- Influence column of an estimated cell, `compute_att_gt.py:389-401`. -/
def rcColumn (allowUnb : Bool) (s : List (Obs ι β)) (idx : List (Option Bool)) (inf : List K) : List K :=
  if allowUnb then cellIFUnbalanced (idCount s) (sortedIds s) (s.map Row.id) idx inf else cellIF idx inf

/-- A 2x2 cross-section estimator without covariates: outcomes, post indicators, treatment indicators, weights. -/
abbrev RCEstimator (K : Type*) := List K → List Bool → List Bool → List K → Est K

/-- `run_att_gt_estimation` with `panel=False`, `compute_att_gt.py:132-204,286-304,366-403`; `s` is the sorted data. -/
def rcRunCell (bp : BasePeriod) (est : RCEstimator K) (cg : ControlGroup) (a : ℤ) (y w : β → K) (allowUnb : Bool)
    (s : List (Obs ι β)) (g : ℤ) (timeIdx : ℕ) : CellRun K :=
  match planCell bp (periodsOf s) a g timeIdx with
  | none => .typeError
  | some .skip => .none_
  | some .typeError => .typeError
  | some (.run pre) =>
    match relevantPeriod (periodsOf s) timeIdx pre (timeFactor bp) a, (periodsOf s)[timeIdx + timeFactor bp]?,
        (periodsOf s)[pre]? with
    | some relevant, some t, some b =>
      let idx := rcCohortIndex cg relevant g t b s
      if some true ∈ idx ∧ some false ∈ idx then
        match est (selectValid idx (s.map fun r => y r.val.2)) (selectValid idx (s.map fun r => decide (r.t = t)))
            (treatOf idx) (selectValid idx (s.map fun r => w r.val.2)) with
        | .failed => .none_
        | .nan => .nan
        | .val att inf => .val att (rcColumn allowUnb s idx inf)
      else .none_
    | _, _, _ => .typeError

/-- `_process_gt_cell_did`, `compute_att_gt.py:406-450`, for `panel=False`; placeholders have `id_count` entries. -/
def rcProcessCell (bp : BasePeriod) (est : RCEstimator K) (cg : ControlGroup) (a : ℤ) (y w : β → K) (allowUnb : Bool)
    (s : List (Obs ι β)) (c : ℕ × ℕ) : Option (Option (ATTgt K × List K)) :=
  match (groupsOf s)[c.1]?, (periodsOf s)[c.2 + timeFactor bp]? with
  | some g, some t =>
    let zeros := List.replicate (idCount s) (0 : K)
    match rcRunCell bp est cg a y w allowUnb s g c.2 with
    | .typeError => none
    | .none_ => match bp with
      | .universal => some (some (⟨0, g, t, g ≤ t⟩, zeros))
      | .varying => some none
    | .nan => some (some (⟨0, g, t, g ≤ t⟩, zeros))
    | .val att inf => some (some (⟨att, g, t, g ≤ t⟩, inf))
  | _, _ => none

/-- `np.column_stack`, `compute_att_gt.py:103-106`: raises unless all columns have the same length. -/
def columnStack (cols : List (List K)) : Option (List (List K)) :=
  if ∀ c ∈ cols, ∀ d ∈ cols, c.length = d.length then some cols else none

/-- `compute_att_gt`, `compute_att_gt.py:60-110`, for `panel=False`. -/
def rcComputeAttGt (bp : BasePeriod) (est : RCEstimator K) (cg : ControlGroup) (a : ℤ) (y w : β → K) (allowUnb : Bool)
    (s : List (Obs ι β)) : Option (List (ATTgt K) × List (List K)) :=
  match (cells bp (groupsOf s).length (periodsOf s).length).mapM (rcProcessCell bp est cg a y w allowUnb s) with
  | none => none
  | some rs => (columnStack (collect rs).2).map fun cols => ((collect rs).1, cols)

/-- Square of the reported analytical standard error, `att_gt.py:391-393`. -/
def reportedVar (s : List (Obs ι β)) (col : List K) : K :=
  (col.map fun x => x * x).sum / (idCount s : K) / (idCount s : K)

/-- `DataFormat`, `core/preprocess/constants.py`. -/
inductive Format | panel | unbalancedPanel | crossSection
deriving DecidableEq, Repr

/-- `ConfigUpdater`, `transformers.py:385-396`. -/
def dataFormat (panelFlag allowUnb : Bool) (s : List (Obs ι β)) : Format :=
  if panelFlag && allowUnb then
    if ∀ u ∈ s.map Row.id, (s.filter fun r => r.id = u).length = (periodsOf s).length then .panel else .unbalancedPanel
  else if panelFlag then .panel else .crossSection

/-- `create_outcomes_tensor` of the three factories, `tensors.py:109-119,150-154,188-190`: `none` is `None`. -/
def outcomesFor (fmt : Format) (y : β → K) (s : List (Obs ι β)) : Option (List (List K)) :=
  match fmt with
  | .panel => some (outcomesTensor y s)
  | _ => none

/-- The preprocessing pipeline with `panel=True`, `transformers.py:217-245,1122-1136`: `PanelBalancer` does nothing
under `allow_unbalanced_panel=True`. -/
def panelPipeline (allowUnb : Bool) (cg : ControlGroup) (a : ℤ) (df : List (Obs ι β)) : Option (List (Obs ι β)) :=
  let d := controlGroup cg a (earlyFilter a (encode df))
  (if allowUnb then some d else balance d).map sortTGI

/-- `att_gt` with `panel=True` after preprocessing.  Indexing a missing tensor raises, exactly as indexing beyond the
end of an empty one, and it happens after the test for treated and comparison units, `compute_att_gt.py:166-180`. -/
def panelAttGt (bp : BasePeriod) (est : Estimator K) (cg : ControlGroup) (a : ℤ) (y w : β → K) (allowUnb : Bool)
    (s : List (Obs ι β)) : Option (List (ATTgt K) × List (List K)) :=
  computeAttGt bp est { dataOf cg a y w s with outcomes := (outcomesFor (dataFormat true allowUnb s) y s).getD [] }

end Model

/-! ## Specification -/

/-- Does this observation enter the cell? -/
def inCell (cg : ControlGroup) (relevant g t b : ℤ) (r : Obs ι β) : Bool :=
  (decide (r.t = t) || decide (r.t = b)) && (decide (cohort r = (g : WithTop ℤ)) || match cg with
    | .neverTreated => decide (cohort r = ⊤)
    | .notYetTreated => decide (cohort r = ⊤) || (decide ((relevant : WithTop ℤ) < cohort r) && decide (cohort r ≠ (g : WithTop ℤ))))

/-- Total of `ψ` over the observations of one unit in the cell. -/
def unitTotal [DecidableEq ι] (c : Obs ι β → Bool) (ψ : Obs ι β → K) (s : List (Obs ι β)) (u : ι) : K :=
  ((s.filter fun r => decide (r.id = u) && c r).map ψ).sum

section Lemmas
variable [LinearOrder ι]

theorem scatter_map {γ : Type*} (c : K) (f : γ → Option Bool) (ψ : γ → K) : ∀ s : List γ,
    scatter c (s.map f) ((s.filter fun r => (f r).isSome).map ψ) = s.map fun r => if (f r).isSome then c * ψ r else 0
  | [] => rfl
  | r :: s => by
    have ih := scatter_map c f ψ s
    cases h : f r with
    | none => simp [h, scatter, ih]
    | some b => simp [h, scatter, ih]

theorem inCell_iff (cg : ControlGroup) (relevant g t b : ℤ) (s : List (Obs ι β)) :
    ∃ f : Obs ι β → Option Bool, rcCohortIndex cg relevant g t b s = s.map f ∧
      ∀ r, (f r).isSome = inCell cg relevant g t b r := by
  refine ⟨_, rfl, fun r => ?_⟩
  unfold inCell
  cases cg
  · by_cases h1 : r.t = t <;> by_cases h2 : r.t = b <;> by_cases h3 : cohort r = (g : WithTop ℤ) <;>
      by_cases h4 : cohort r = ⊤ <;> simp [h1, h2, h3, h4] <;> simp_all
  · by_cases h1 : r.t = t <;> by_cases h2 : r.t = b <;> by_cases h3 : cohort r = (g : WithTop ℤ) <;>
      by_cases h4 : cohort r = ⊤ <;> by_cases h5 : (relevant : WithTop ℤ) < cohort r <;>
      simp [h1, h2, h3, h4, h5] <;> simp_all

theorem uniqStable_of_nodup {α : Type*} [DecidableEq α] {l : List α} (h : l.Nodup) : uniqStable l = l := by
  unfold uniqStable
  rw [List.dedup_eq_self.2 (List.nodup_reverse.2 h), List.reverse_reverse]

theorem filterMap_find {s : List (Obs ι β)} (h : (s.map Row.id).Nodup) :
    timeInvariant s = s := by
  unfold timeInvariant
  rw [uniqStable_of_nodup h, List.filterMap_map]
  have key : ∀ r ∈ s, s.find? (fun q => decide (q.id = r.id)) = some r := by
    intro r hr
    have hs : (s.find? fun q => decide (q.id = r.id)).isSome := by
      rw [List.find?_isSome]; exact ⟨r, hr, by simp⟩
    obtain ⟨q, hq⟩ := Option.isSome_iff_exists.1 hs
    rw [hq]
    have h1 := List.find?_some hq
    simp only [decide_eq_true_eq] at h1
    have := List.inj_on_of_nodup_map h (List.mem_of_find?_eq_some hq) hr h1
    rw [this]
  have : ∀ l : List (Obs ι β), (∀ r ∈ l, s.find? (fun q => decide (q.id = r.id)) = some r) →
      l.filterMap ((fun u => s.find? fun q => decide (q.id = u)) ∘ Row.id) = l := by
    intro l
    induction l with
    | nil => simp
    | cons r l ih =>
      intro h
      rw [List.filterMap_cons, Function.comp_apply, h r (by simp), ih fun q hq => h q (by simp [hq])]
  exact this s key

theorem nValid_map {γ : Type*} (f : γ → Option Bool) (s : List γ) :
    nValid (s.map f) = (s.filter fun r => (f r).isSome).length := by
  unfold nValid
  rw [List.filter_map, List.length_map]
  rfl

theorem sum_ite_filter {γ : Type*} (p : γ → Bool) (ψ : γ → K) (s : List γ) :
    (s.map fun r => if p r then ψ r else 0).sum = ((s.filter p).map ψ).sum := by
  induction s with
  | nil => simp
  | cons r s ih => by_cases h : p r <;> simp [h, ih]

theorem zip_map_self {γ δ : Type*} (f : γ → ι) (h : γ → δ) (s : List γ) :
    (s.map f).zip (s.map h) = s.map fun r => (f r, h r) := by
  induction s with
  | nil => rfl
  | cons r s ih => simp [ih]

end Lemmas

end Verif.AttGt
