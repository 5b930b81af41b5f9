import Mathlib.Data.List.Sort
import Mathlib.Data.List.Dedup
import Mathlib.Data.Fintype.Card
import Mathlib.Algebra.BigOperators.Field
import Mathlib.Algebra.Order.Field.Basic
import Mathlib.Order.WithBot

set_option linter.unusedSectionVars false

/-!
# Continuous treatment: aggregation of cells

Models `overall_weights`, `safe_normalize` and the weight influence functions of
`moderndid/didcont/estimation/process_aggte.py`, and the combination of cells in
`moderndid/didcont/estimation/process_dose.py`.  A cell is a pair `(cohort, period)`; the cohort shares
`mean(w * (G == g))` over the rows of the first period are a function of the cohort.
-/

namespace Verif.Cont

variable {ι K : Type*}

/-- `t_levels`, `process_aggte.py:374`. -/
def levels (cells : List (ℤ × ℤ)) : List ℤ := (cells.map Prod.snd).dedup.insertionSort (· ≤ ·)

/-- `_map_to_idx(v, time_map)`, `process_aggte.py:375-377`, `core/preprocess/utils.py:13-31`. -/
def toIdx (cells : List (ℤ × ℤ)) (v : ℤ) : ℤ := if v ∈ levels cells then ((levels cells).idxOf v : ℤ) + 1 else v

/-- `max_t`, `process_aggte.py:378`. -/
def maxT (cells : List (ℤ × ℤ)) : ℤ := ((levels cells).length : ℤ)

/-- `glist_original`, `process_aggte.py:384`. -/
def gListOf (cells : List (ℤ × ℤ)) : List ℤ := ((cells.map Prod.fst).filter (0 < ·)).dedup.insertionSort (· ≤ ·)

/-- `keepers_mask`, `process_aggte.py:393-396`. -/
def keeper (maxE : Option ℤ) (cells : List (ℤ × ℤ)) (c : ℤ × ℤ) : Bool :=
  decide (toIdx cells c.1 ≤ toIdx cells c.2) && maxE.all fun e => decide (toIdx cells c.2 ≤ toIdx cells c.1 + e)

/-- `is_this_g`, `process_aggte.py:401-405`. -/
def isThis (maxE : Option ℤ) (cells : List (ℤ × ℤ)) (g : ℤ) (c : ℤ × ℤ) : Bool :=
  decide (toIdx cells c.1 = toIdx cells g) && decide (toIdx cells g ≤ toIdx cells c.2) &&
    decide (toIdx cells c.2 ≤ toIdx cells c.1 + maxE.getD (maxT cells))

section
variable [Field K] [LinearOrder K]

/-- `safe_normalize`, `process_aggte.py:424-432`. -/
def safeNormalize (x : List K) : List K :=
  if x.sum ≤ 0 then x.map fun _ => 1 / (x.length : K) else x.map fun v => v / x.sum

/-- `pg_groups`, `process_aggte.py:387-391`, paired with the cohorts. -/
def pgOf (share : ℤ → K) (cells : List (ℤ × ℤ)) : List (ℤ × K) :=
  (gListOf cells).zip (safeNormalize ((gListOf cells).map share))

/-- `g_weights`, `process_aggte.py:398-407`: the cohort's share divided by its number of post-treatment cells. -/
def gWeight (maxE : Option ℤ) (cells : List (ℤ × ℤ)) (p : ℤ × K) : K :=
  if cells.countP (isThis maxE cells p.1) = 0 then 0 else p.2 / (cells.countP (isThis maxE cells p.1) : K)

/-- `group_to_weight.get(g, 0.0)`, `process_aggte.py:409-410`: the last cohort with that index wins. -/
def groupToWeight (maxE : Option ℤ) (share : ℤ → K) (cells : List (ℤ × ℤ)) (gi : ℤ) : K :=
  (((pgOf share cells).filter fun p => decide (toIdx cells p.1 = gi)).getLast?.map (gWeight maxE cells)).getD 0

/-- Weights before normalisation, `process_aggte.py:410-412`. -/
def rawWeights (maxE : Option ℤ) (share : ℤ → K) (cells : List (ℤ × ℤ)) : List K :=
  cells.map fun c => groupToWeight maxE share cells (toIdx cells c.1) * (if keeper maxE cells c then 1 else 0)

/-- `overall_weights`, `process_aggte.py:343-421`; `none` is the `RuntimeError`.  (`np.isclose(total, 1)` is modelled by
equality: dividing by a total of 1 is the identity.) -/
def overallWeights (maxE : Option ℤ) (share : ℤ → K) (cells : List (ℤ × ℤ)) : Option (List K) :=
  let raw := rawWeights maxE share cells
  if raw.sum = 1 then some raw else if 0 < raw.sum then some (raw.map fun v => v / raw.sum) else none

/-- `np.nansum(att_overall_by_group * weights)`, `process_dose.py:91,105`: `none` is a cell without results. -/
def nansumOverall (ws : List K) (atts : List (Option K)) : K := ((ws.zip atts).map fun p => p.1 * p.2.getD 0).sum

/-- Entries with results, `process_dose.py:299-302`. -/
def available (ws : List K) (atts : List (Option K)) : List (K × K) :=
  (ws.zip atts).filterMap fun p => p.2.map fun a => (p.1, a)

/-- `_weighted_combine_arrays` at one dose, `process_dose.py:291-315`. -/
def combineCurve (ws : List K) (atts : List (Option K)) : K :=
  ((available ws atts).map fun p => p.1 / ((available ws atts).map Prod.fst).sum * p.2).sum

/-- `np.sum(influence * weights, axis=1)`, `process_dose.py:94,106,318-325`. -/
def combineIF (ws : List K) (cols : List (ι → K)) (i : ι) : K := ((ws.zip cols).map fun p => p.1 * p.2 i).sum

/-- The two influence functions reported by `process_dose_gt`: overall ATT and overall ACRT.  Both are computed from
`gt_results["influence_func"]` (`att_gt.influence_func` is the same array), `process_dose.py:85,93-94,106`,
`process_attgt.py:37,109`. -/
def doseInfluences (ws : List K) (cols : List (ι → K)) : (ι → K) × (ι → K) := (combineIF ws cols, combineIF ws cols)

/-- `weight_influence_function_from_att_indices` for one unit and one selected cell, `process_aggte.py:481-504`: `pg` are
the (normalised) shares, `ks` the cohorts of the selected cells, `wi` the unit's weight and `Gi` its cohort. -/
def wifEntry (pg : ℤ → K) (ks : List ℤ) (wi : K) (Gi : WithTop ℤ) (g : ℤ) : K :=
  (wi * (if Gi = (g : WithTop ℤ) then 1 else 0) - pg g) / (ks.map pg).sum -
    (ks.map fun k : ℤ => wi * (if Gi = (k : WithTop ℤ) then 1 else 0) - pg k).sum * (pg g / (ks.map pg).sum ^ 2)

end

end Verif.Cont
