import Verif.Agg.Props3

set_option linter.unusedSectionVars false

/-! # C38: which weights reach the aggregation step -/

namespace Verif.Agg

variable {ι K : Type*} [Fintype ι] [Field K]

/-- The part of the configuration that decides which columns are kept: `DIDConfig.{idname, gname, weightsname,
clustervars}` and the formula variables that are constant within unit. -/
structure WCfg where
  idname : String
  gname : String
  weightsname : Option String
  clustervars : List String
  xvars : List String

/-- `WEIGHTS_COLUMN`, `core/preprocess/constants.py:50`. -/
def weightsColumn : String := "weights"

/-- Columns of `time_invariant_data`, `core/preprocess/tensors.py:36-61` (all requested columns exist). -/
def tiColumns (cfg : WCfg) : List String :=
  ([cfg.idname, cfg.gname, weightsColumn] ++ cfg.clustervars ++ cfg.xvars).dedup

/-- A table of unit-constant columns. -/
abbrev Table (ι K : Type*) := String → ι → K

/-- `WeightNormalizer`, `transformers.py:95-104`, on unit-constant weights of a balanced panel: the column `weights` is
set to the normalised user weights (or ones). -/
def normalizeCol (cfg : WCfg) (tbl : Table ι K) : Table ι K := fun c =>
  if c = weightsColumn then
    match cfg.weightsname with
    | none => fun _ => 1
    | some n => fun i => tbl n i / avg (tbl n)
  else tbl c

/-- `sampling_weights` of `att_gt.py:519-520` and the fallback of `compute_aggte.py:170-172`. -/
def aggWeights (cfg : WCfg) (tbl : Table ι K) : ι → K :=
  match cfg.weightsname with
  | none => fun _ => 1
  | some n => if n ∈ tiColumns cfg then normalizeCol cfg tbl n else fun _ => 1

/-- Weights used for the cell estimates: the column `weights` of the time-invariant table (`tensors.py`, C20). -/
def cellWeights (cfg : WCfg) (tbl : Table ι K) : ι → K := normalizeCol cfg tbl weightsColumn

/-- **C38, positive part.** If the weight column is literally called `weights`, aggregation uses the normalised user
weights, the same as the cell estimates, so every cohort share is the user-weighted share divided by the mean weight. -/
theorem C38_weights_named_weights (cfg : WCfg) (tbl : Table ι K) (h : cfg.weightsname = some weightsColumn)
    (G : ι → WithTop ℤ) (g : ℤ) :
    aggWeights cfg tbl = cellWeights cfg tbl ∧
    share G (aggWeights cfg tbl) g = share G (tbl weightsColumn) g / avg (tbl weightsColumn) := by
  have hm : weightsColumn ∈ tiColumns cfg := by unfold tiColumns; simp
  have h1 : aggWeights cfg tbl = cellWeights cfg tbl := by
    unfold aggWeights cellWeights
    simp only [h, hm, if_true]
  refine ⟨h1, ?_⟩
  have h2 : aggWeights cfg tbl = fun i => tbl weightsColumn i / avg (tbl weightsColumn) := by
    rw [h1]; unfold cellWeights normalizeCol; simp [h]
  rw [h2]
  unfold share
  rw [div_div, mul_comm, ← div_div]
  congr 1
  rw [Finset.sum_div]
  exact Finset.sum_congr rfl fun i _ => by split_ifs <;> simp

/-- **C38 fails in general.** If the weight column has any other name (and is not also a cluster variable or covariate),
the aggregation ignores it: whatever the weights are, all units count equally. -/
theorem C38_weights_ignored_violated (cfg : WCfg) (n : String) (h : cfg.weightsname = some n)
    (hid : n ≠ cfg.idname) (hg : n ≠ cfg.gname) (hw : n ≠ weightsColumn)
    (hc : n ∉ cfg.clustervars) (hx : n ∉ cfg.xvars) (tbl : Table ι K) : aggWeights cfg tbl = fun _ => 1 := by
  have : n ∉ tiColumns cfg := by unfold tiColumns; simp [hid, hg, hw, hc, hx]
  unfold aggWeights
  simp only [h, this, if_false]

/-- Weight column `w`: cohort 2004 has weight 1 per unit, cohort 2006 weight 10. -/
def exCfg : WCfg := ⟨"id", "g", some "w", [], []⟩
def exTbl : Table (Fin 6) ℚ := fun _ => ![1, 1, 10, 1, 1, 1]

/-- The overall effect differs from the one with the user's weights. -/
theorem C38_example_violated :
    (simpleAgg exG (aggWeights exCfg exTbl) none exYearly).1 = some (24 / 7) ∧
    (simpleAgg exG (cellWeights exCfg exTbl) none exYearly).1 = some (60 / 16) := by decide +kernel

example : exCfg.weightsname = some "w" ∧ "w" ≠ exCfg.idname ∧ "w" ≠ exCfg.gname ∧ "w" ≠ weightsColumn ∧
    "w" ∉ exCfg.clustervars ∧ "w" ∉ exCfg.xvars := by decide
example : (⟨"id", "g", some "weights", [], []⟩ : WCfg).weightsname = some weightsColumn := rfl

end Verif.Agg
