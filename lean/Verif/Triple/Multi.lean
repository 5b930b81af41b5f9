import Verif.Triple.Model

/-!
# Triple differences with several periods: executable model

`moderndid/didtriple/estimators/ddd_mp.py` (the cross-sectional twin `ddd_mp_rc.py` has the same loop, lines 231-285) and
`moderndid/didtriple/compute_agg_ddd.py`.  Standard errors are kept squared, so no square root is needed.  Not modelled:
bootstrap, confidence limits, the `1e-7` threshold turning tiny standard errors into NaN.
-/

namespace Verif.Triple

variable {K : Type*} [Field K]

/-- A row of the data: unit, period, cohort (`none` = not finite), eligibility (`partition_col == 1`), outcome. -/
structure Row (K : Type*) where
  id : ℕ
  time : ℤ
  g : Option ℤ
  elig : Bool
  y : K

/-- `tlist`, `ddd_mp.py:223`. -/
def tlistOf (data : List (Row K)) : List ℤ := Agg.uniqueSorted (data.map Row.time)

/-- `glist`, `ddd_mp.py:224-225`. -/
def glistOf (data : List (Row K)) : List ℤ :=
  Agg.uniqueSorted ((data.filterMap Row.g).filter fun g => decide (0 < g))

/-- `unique_ids`, `ddd_mp.py:237`. -/
def idsOf (data : List (Row K)) : List ℕ := ((data.map Row.id).dedup).insertionSort (· ≤ ·)

/-- `pre_periods[-1]` if any, `ddd_mp.py:387-390,456-459`. -/
def lastPre (tlist : List ℤ) (g : ℤ) : Option ℤ := (tlist.filter fun s => decide (s < g)).getLast?

/-- `_get_base_period`, `ddd_mp.py:453-460`. -/
def basePeriod (universal : Bool) (tlist : List ℤ) (g : ℤ) (tIdx : ℕ) : Option ℤ :=
  if universal then lastPre tlist g else tlist[tIdx]?

/-- The base period finally used, `ddd_mp.py:380-390`. -/
def pretOf (universal : Bool) (tlist : List ℤ) (g t : ℤ) (tIdx : ℕ) : Option ℤ :=
  match basePeriod universal tlist g tIdx with
  | none => none
  | some p => if g ≤ t then lastPre tlist g else some p

/-- `(G == 0) | ~is_finite(G)`. -/
def neverTreated : Option ℤ → Bool
  | none => true
  | some g => decide (g = 0)

/-- `G > max_period` (for a non-finite value the other disjunct already holds). -/
def laterThan (m : ℤ) : Option ℤ → Bool
  | none => true
  | some g => decide (m < g)

/-- `control_expr`, `ddd_mp.py:465-472`. -/
def isControl (notyet : Bool) (g t pret : ℤ) (c : Option ℤ) : Bool :=
  if notyet then (neverTreated c || laterThan (max t pret) c) && decide (c ≠ some g) else neverTreated c

/-- `cell_data`, `ddd_mp.py:474-477`. -/
def cellData (notyet : Bool) (g t pret : ℤ) (data : List (Row K)) : List (Row K) :=
  data.filter fun r => (decide (r.g = some g) || isControl notyet g t pret r.g) &&
    (decide (r.time = t) || decide (r.time = pret))

/-- `available_controls`, `ddd_mp.py:482-483` (in some order; polars `unique` fixes none). -/
def availableControls (g : ℤ) (cell : List (Row K)) : List (Option ℤ) :=
  ((cell.filter fun r => decide (r.g ≠ some g)).map Row.g).dedup

/-- `subgroup`, `ddd_mp.py:584-590`. -/
def subgroupOf (g : ℤ) (r : Row K) : ℕ :=
  if r.g = some g then (if r.elig then 4 else 3) else (if r.elig then 2 else 1)

/-- Rows of one period sorted by unit, `ddd_mp.py:594-595`. -/
def atTime (s : ℤ) (rows : List (Row K)) : List (Row K) :=
  (rows.filter fun r => decide (r.time = s)).insertionSort fun a b => a.id ≤ b.id

/-- Units seen in both periods, as (post row, pre row) pairs in unit order, `ddd_mp.py:594-611` (the two outcome arrays
are paired by position). -/
def pairs (t pret : ℤ) (rows : List (Row K)) : List (Row K × Row K) :=
  let post := atTime t rows
  let pre := atTime pret rows
  (post.filter fun r => decide (r.id ∈ pre.map Row.id)).zip (pre.filter fun r => decide (r.id ∈ post.map Row.id))

/-- What `ddd_panel` is called with: for every unit its outcomes in the two periods (and the covariates of the post
row) and its subgroup.  Returns `None` on its own errors, `ddd_mp.py:616-627`. -/
abbrev Estimator (K : Type*) := List (Row K × Row K × ℕ) → Option (K × List K)

/-- `_compute_single_ddd`, `ddd_mp.py:580-627`: estimate, influence values, units. -/
def singleDDD (est : Estimator K) (g t pret : ℤ) (rows : List (Row K)) : Option (K × List K × List ℕ) :=
  let ps := pairs t pret rows
  if ps.isEmpty then none
  else if ¬ ps.any (fun p => decide (subgroupOf g p.1 = 4)) then none
  else match est (ps.map fun p => (p.1, p.2, subgroupOf g p.1)) with
    | none => none
    | some (a, f) => some (a, f, ps.map fun p => p.1.id)

/-! ## Combination of several comparison cohorts -/

section GMM
variable {σ μ : Type*} [Fintype σ] [Fintype μ]

/-- `np.cov(inf_mat, rowvar=False)`, `ddd_mp.py:632`. -/
def cov (X : σ → μ → K) (a b : μ) : K :=
  (∑ i, (X i a - DR.mean (fun j => X j a)) * (X i b - DR.mean (fun j => X j b))) / ((Fintype.card σ : K) - 1)

/-- `inv_omega @ ones / (ones @ inv_omega @ ones)`, `ddd_mp.py:641-642`. -/
def gmmW (P : μ → μ → K) (a : μ) : K := (∑ b, P a b) / ∑ a, ∑ b, P a b

/-- `_gmm_aggregate`, `ddd_mp.py:630-648`: estimate, influence values, squared standard error. -/
def gmm (inv : (μ → μ → K) → μ → μ → K) (att : μ → K) (X : σ → μ → K) (n : ℕ) : K × (σ → K) × K :=
  let P := inv (cov X)
  (∑ a, gmmW P a * att a, fun i => ∑ a, X i a * gmmW P a, 1 / ((n : K) * ∑ a, ∑ b, P a b))

end GMM

/-- Influence values of one comparison placed among the units of the whole cell, `ddd_mp.py:566-573`. -/
def placed (cellIds : List ℕ) (f : List K) (ids : List ℕ) (i : Fin cellIds.length) : K :=
  match (ids.idxOf? cellIds[i]) with
  | none => 0
  | some k => ((cellIds.length : K) / (ids.length : K)) * (f[k]?).getD 0

/-- Result of one cell, `ddd_mp.py:370-378`: label, estimate, influence values by unit if any, squared standard error of
the combination if any. -/
structure CellOut (K : Type*) where
  g : ℤ
  t : ℤ
  att : K
  inf : Option (List ℕ × List K)
  se2 : Option K

/-- `_process_multiple_controls`, `ddd_mp.py:522-577`. -/
def multiControls (inv : ∀ m, (Fin m → Fin m → K) → Fin m → Fin m → K) (est : Estimator K) (g t pret : ℤ)
    (controls : List (Option ℤ)) (cell : List (Row K)) (nUnits : ℕ) : Option (K × (List ℕ × List K) × K) :=
  let res := controls.filterMap fun c =>
    singleDDD est g t pret (cell.filter fun r => decide (r.g = some g) || decide (r.g = c))
  if res.isEmpty then none
  else
    let cellIds := ((res.flatMap fun r => r.2.2).dedup).insertionSort (· ≤ ·)
    let out := gmm (inv res.length) (fun a : Fin res.length => res[a].1)
      (fun (i : Fin cellIds.length) (a : Fin res.length) => placed cellIds res[a].2.1 res[a].2.2 i) nUnits
    some (out.1, (cellIds, (List.finRange cellIds.length).map fun i =>
      ((nUnits : K) / (cellIds.length : K)) * out.2.1 i), out.2.2)

/-- `_process_gt_cell`, `ddd_mp.py:355-450`. -/
def processCell (inv : ∀ m, (Fin m → Fin m → K) → Fin m → Fin m → K) (est : Estimator K) (universal notyet : Bool)
    (data : List (Row K)) (g t : ℤ) (tIdx : ℕ) : Option (CellOut K) :=
  match pretOf universal (tlistOf data) g t tIdx with
  | none => none
  | some pret =>
    if universal && decide (pret = t) then some ⟨g, t, 0, none, none⟩
    else
      let cell := cellData notyet g t pret data
      let nUnits := (idsOf data).length
      match availableControls g cell with
      | [] => none
      | [_] => (singleDDD est g t pret cell).map fun r =>
          ⟨g, t, r.1, some (r.2.2, r.2.1.map fun v => ((nUnits : K) / (r.2.2.length : K)) * v), none⟩
      | cs => (multiControls inv est g t pret cs cell nUnits).map fun r => ⟨g, t, r.1, some r.2.1, some r.2.2⟩

/-- The cells in the order they are attempted, `ddd_mp.py:240-262`: (cohort, period, index). -/
def attempts (universal : Bool) (data : List (Row K)) : List (ℤ × ℤ × ℕ) :=
  let tlist := tlistOf data
  let tfac := if universal then 0 else 1
  (glistOf data).flatMap fun g => (List.range (tlist.length - tfac)).map fun i => (g, (tlist[i + tfac]?).getD 0, i)

/-- One column of `inf_func_mat`, `ddd_mp.py:488-492`. -/
def column (ids : List ℕ) (f : List K) (u : ℕ) : K :=
  match ids.idxOf? u with
  | none => 0
  | some k => (f[k]?).getD 0

/-- Column `k` of the matrix being filled: written by the `k`-th attempted cell, `ddd_mp.py:266-276`. -/
def matCol (results : List (Option (CellOut K))) (k : ℕ) (u : ℕ) : K :=
  match results[k]? with
  | some (some c) => match c.inf with
    | some (ids, f) => column ids f u
    | none => 0
  | _ => 0

/-- Entry `k` of `se_array`, squared. -/
def seEntry (results : List (Option (CellOut K))) (k : ℕ) : Option K :=
  match results[k]? with
  | some (some c) => c.se2
  | _ => none

/-- `DDDMultiPeriodResult`. -/
structure MpResult (K : Type*) where
  entries : List (CellOut K)
  ids : List ℕ
  /-- influence matrix: column, unit -/
  mat : ℕ → ℕ → K
  se2 : ℕ → K
  glist : List ℤ
  tlist : List ℤ
  /-- cohort of each unit -/
  unitG : ℕ → Option ℤ

/-- Reported squared standard error of entry `k`, `ddd_mp.py:312-316` (analytic case). -/
def reportedSe2 (ids : List ℕ) (results : List (Option (CellOut K))) (k : ℕ) : K :=
  match seEntry results k with
  | some v => v
  | none => ((ids.map fun u => matCol results k u * matCol results k u).sum / (ids.length : K)) / (ids.length : K)

/-- Cohort of a unit: its first row in period order, `ddd_mp.py:287-293`. -/
def unitCohort (data : List (Row K)) (u : ℕ) : Option ℤ :=
  (((data.filter fun r => decide (r.id = u)).insertionSort fun a b => a.time ≤ b.time).head?).bind Row.g

/-- Assembly, `ddd_mp.py:264-285,339-352`; `none` is the `ValueError`.  Columns beyond the number of surviving cells are
cut (line 285). -/
def assemble (data : List (Row K)) (results : List (Option (CellOut K))) : Option (MpResult K) :=
  let entries := results.filterMap id
  if entries.isEmpty then none
  else some
    { entries := entries
      ids := idsOf data
      mat := fun k u => if k < entries.length then matCol results k u else 0
      se2 := reportedSe2 (idsOf data) results
      glist := glistOf data
      tlist := tlistOf data
      unitG := unitCohort data }

/-- `ddd_mp`, `ddd_mp.py:221-352`. -/
def dddMp (inv : ∀ m, (Fin m → Fin m → K) → Fin m → Fin m → K) (est : Estimator K) (universal notyet : Bool)
    (data : List (Row K)) : Option (MpResult K) :=
  assemble data ((attempts universal data).map fun a => processCell inv est universal notyet data a.1 a.2.1 a.2.2)

/-! ## The entry point -/

/-- `ddd()` with more than two periods, `ddd.py:444-492`: the column of observation weights is not handed on. -/
def dddEntryMulti (inv : ∀ m, (Fin m → Fin m → K) → Fin m → Fin m → K) (est : Estimator K) (universal notyet : Bool)
    (data : List (Row K)) (_weights : ℕ → K) : Option (MpResult K) :=
  dddMp inv est universal notyet data

end Verif.Triple
