import Mathlib.Algebra.BigOperators.Field
import Mathlib.Algebra.BigOperators.Ring.Finset
import Mathlib.Algebra.Order.Field.Basic
import Mathlib.Data.Fintype.BigOperators
import Mathlib.Data.List.Sort
import Mathlib.Order.WithBot

/-!
# Aggregation of group-time effects: executable model

Models `moderndid/did/compute_aggte.py` (point estimates and influence functions; standard errors are in `Verif.Boot`).
Units are a finite type `ι`; `G i = ⊤` is a never-treated unit (`inf`).  NaN is `none`.
-/

namespace Verif.Agg

variable {ι K : Type*}

/-- One group-time estimate as returned by `att_gt`: cohort, period, estimate (`none` = NaN), influence values. -/
structure InCell (ι K : Type*) where
  g : ℤ
  t : ℤ
  att : Option K
  psi : ι → K

/-- The same after missing values have been dealt with. -/
structure Cell (ι K : Type*) where
  g : ℤ
  t : ℤ
  att : K
  psi : ι → K

/-- `np.sort(np.unique(x))`. -/
def uniqueSorted (l : List ℤ) : List ℤ := l.dedup.insertionSort (· ≤ ·)

/-- Cells with a number, `compute_aggte.py:116-121`. -/
def numberCells (cs : List (InCell ι K)) : List (Cell ι K) :=
  cs.filterMap fun c => c.att.map fun a => ⟨c.g, c.t, a, c.psi⟩

/-- Missing-value handling, `compute_aggte.py:116-138`; `none` is the `ValueError` of line 138.  With `dropna`, group
aggregation also drops cohorts without any post-treatment estimate (lines 123-135). -/
def prepare (dropna isGroup : Bool) (cs : List (InCell ι K)) : Option (List (Cell ι K)) :=
  let ok := numberCells cs
  if dropna then
    if isGroup then some (ok.filter fun c => ok.any fun c' => decide (c'.g = c.g) && decide (c'.g ≤ c'.t)) else some ok
  else if cs.any (fun c => c.att.isNone) then none else some ok

/-- `unique_original_times_and_groups`, `compute_aggte.py:143-150`. -/
def lookup (cs : List (Cell ι K)) : List ℤ :=
  uniqueSorted (uniqueSorted (cs.map Cell.t) ++ uniqueSorted (cs.map Cell.g))

/-- `_orig2t`, `compute_aggte.py:1001-1007`: first position holding the value, counted from 1 (`none` = NaN). -/
def orig2t (lk : List ℤ) (x : ℤ) : Option ℕ :=
  (lk.findIdx? fun a => decide (a = x)).map (· + 1)

/-- `np.searchsorted(lk, x)` (number of smaller entries of a sorted array). -/
def searchSorted (lk : List ℤ) (x : WithTop ℤ) : ℕ := (lk.filter fun a : ℤ => decide ((a : WithTop ℤ) < x)).length

/-- `_orig2t_array`, one element, `compute_aggte.py:1010-1021`. -/
def orig2tArr (lk : List ℤ) (x : WithTop ℤ) : Option ℕ :=
  if lk.length = 0 then none else
  let clamped := min (searchSorted lk x) (lk.length - 1)
  match lk[clamped]? with
  | none => none
  | some a => if (a : WithTop ℤ) = x then some (clamped + 1) else none

/-- `_t2orig`, `compute_aggte.py:1024-1030`. -/
def t2orig (lk : List ℤ) (t : ℕ) : ℤ :=
  match ((List.range lk.length).map (· + 1)).findIdx? (fun a => decide (a = t)) with
  | some i => (lk[i]?).getD 0
  | none => 0

/-- Recoded value of a cohort or period of some cell, `compute_aggte.py:154-158` (always found, see C33). -/
def code (lk : List ℤ) (x : ℤ) : ℕ := (orig2t lk x).getD 0

section
variable [Fintype ι] [Field K]

/-- `np.mean` over units. -/
def avg (f : ι → K) : K := (∑ i, f i) / (Fintype.card ι : K)

/-- `unit_level_weights * (unit_level_groups_recoded == g)`; NaN equals nothing. -/
def wInd (lk : List ℤ) (G : ι → WithTop ℤ) (w : ι → K) (g : ℕ) (i : ι) : K :=
  if orig2tArr lk (G i) = some g then w i else 0

/-- `group_probabilities` of a recoded cohort, `compute_aggte.py:187-195`. -/
def groupProb (lk : List ℤ) (G : ι → WithTop ℤ) (w : ι → K) (g : ℕ) : K := avg (wInd lk G w g)

/-- A cell with its recoded cohort and period and `observation_group_probabilities`, `compute_aggte.py:146-195`. -/
structure RCell (ι K : Type*) extends Cell ι K where
  rg : ℕ
  rt : ℕ
  pg : K

/-- `compute_aggte.py:140-195`. -/
def recode (G : ι → WithTop ℤ) (w : ι → K) (cs : List (Cell ι K)) : List (RCell ι K) :=
  let lk := lookup cs
  cs.map fun c => { toCell := c, rg := code lk c.g, rt := code lk c.t, pg := groupProb lk G w (code lk c.g) }

/-- `pg_keepers.sum()`. -/
def sumPg (kept : List (RCell ι K)) : K := (kept.map RCell.pg).sum

/-- Weighted combination `sum(att * pg / pg.sum())`, `compute_aggte.py:305-306,513-516,635-638`.  `none` (NaN) when
cells are kept but their shares sum to zero; with no cell at all the numpy sum is `0`. -/
def combine (kept : List (RCell ι K)) [DecidableEq K] : Option K :=
  if kept ≠ [] ∧ sumPg kept = 0 then none else some ((kept.map fun c => c.att * (c.pg / sumPg kept)).sum)

/-- `_compute_weight_inf_func`, `compute_aggte.py:720-793`: entry of unit `i` for the kept cell `c`. -/
def weightIF (lk : List ℤ) (G : ι → WithTop ℤ) (w : ι → K) (kept : List (RCell ι K)) (c : RCell ι K) (i : ι) : K :=
  (wInd lk G w c.rg i - c.pg) / sumPg kept -
    (kept.map fun k => wInd lk G w k.rg i - k.pg).sum / sumPg kept ^ 2 * c.pg

/-- `_get_agg_inf_func` with estimated weights, `compute_aggte.py:796-833`. -/
def aggIF (lk : List ℤ) (G : ι → WithTop ℤ) (w : ι → K) (kept : List (RCell ι K)) (i : ι) : K :=
  (kept.map fun c => c.psi i * (c.pg / sumPg kept)).sum + (kept.map fun c => weightIF lk G w kept c i * c.att).sum

/-- `times <= groups + max_e` on recoded values; `none` is infinity. -/
def withinMax (maxE : Option ℤ) (rg rt : ℕ) : Bool :=
  match maxE with
  | none => true
  | some m => decide ((rt : ℤ) ≤ (rg : ℤ) + m)

/-- `post_treatment`, `compute_aggte.py:199`. -/
def isPost (maxE : Option ℤ) (c : RCell ι K) : Bool := decide (c.rg ≤ c.rt) && withinMax maxE c.rg c.rt

/-- `_compute_simple_att`, `compute_aggte.py:287-351`. -/
def simpleAgg [DecidableEq K] (G : ι → WithTop ℤ) (w : ι → K) (maxE : Option ℤ) (cs : List (Cell ι K)) :
    Option K × (ι → K) :=
  let kept := (recode G w cs).filter (isPost maxE)
  match combine kept with
  | none => (none, fun _ => 0)
  | some a => (some a, aggIF (lookup cs) G w kept)

/-- An effect reported for one cohort / event time / period: label, estimate, influence values. -/
structure Eff (ι K : Type*) where
  label : ℤ
  att : Option K
  psi : ι → K

/-- Cells of one cohort, `compute_aggte.py:376`. -/
def groupMask (maxE : Option ℤ) (rg : ℕ) (c : RCell ι K) : Bool :=
  decide (c.rg = rg) && decide (rg ≤ c.rt) && withinMax maxE rg c.rt

/-- One cohort effect, `compute_aggte.py:375-394`: plain mean of its post-treatment cells. -/
def groupEff (maxE : Option ℤ) (lk : List ℤ) (rc : List (RCell ι K)) (g : ℤ) : Eff ι K :=
  let m := rc.filter (groupMask maxE (code lk g))
  if m.isEmpty then ⟨g, none, fun _ => 0⟩
  else ⟨g, some ((m.map fun c => c.att).sum / (m.length : K)),
    fun i => (m.map fun c => c.psi i * (1 / (m.length : K))).sum⟩

/-- A cohort effect in the role of a cell for the overall combination, `compute_aggte.py:397,412-430`: a missing effect
counts as `0` (line 397). -/
def effCell (lk : List ℤ) (G : ι → WithTop ℤ) (w : ι → K) (e : Eff ι K) : RCell ι K :=
  { g := e.label, t := e.label, att := e.att.getD 0, psi := e.psi, rg := code lk e.label, rt := code lk e.label,
    pg := groupProb lk G w (code lk e.label) }

/-- Result of an aggregation: effects, overall effect (`none` = NaN), overall influence values. -/
structure AggResult (ι K : Type*) where
  effects : List (Eff ι K)
  overall : Option K
  overallPsi : ι → K

/-- `_compute_group_att`, `compute_aggte.py:354-453`. -/
def groupAgg [DecidableEq K] (G : ι → WithTop ℤ) (w : ι → K) (maxE : Option ℤ) (cs : List (Cell ι K)) :
    AggResult ι K :=
  let lk := lookup cs
  let effs := (uniqueSorted (cs.map Cell.g)).map (groupEff maxE lk (recode G w cs))
  let ks := effs.map (effCell lk G w)
  { effects := effs
    overall := if sumPg ks = 0 then none else some ((ks.map fun c => c.att * c.pg).sum / sumPg ks)
    overallPsi := aggIF lk G w ks }

/-- `np.nanmean` (`none` = NaN, also for no numbers at all). -/
def nanMean (l : List (Option K)) : Option K :=
  let v := l.filterMap id
  if v.isEmpty then none else some (v.sum / (v.length : K))

/-- `max_original_time`, `min_original_time`: largest / smallest recoded period decoded again,
`compute_aggte.py:487-488,497-498`. -/
def maxTime (cs : List (Cell ι K)) : ℤ :=
  t2orig (lookup cs) ((cs.map fun c => code (lookup cs) c.t).foldr max 0)
def minTime (cs : List (Cell ι K)) : ℤ :=
  t2orig (lookup cs) (((cs.map fun c => code (lookup cs) c.t).min?).getD 0)

/-- `include_balanced`, `compute_aggte.py:485-490`. -/
def includeBal (balance : Option ℤ) (cs : List (Cell ι K)) (c : Cell ι K) : Bool :=
  match balance with
  | none => true
  | some b => decide (b ≤ maxTime cs - c.g)

/-- `e >= min_e` and `e <= max_e`, `compute_aggte.py:504`; `none` is infinite. -/
def aboveMin (minE : Option ℤ) (e : ℤ) : Bool := match minE with | none => true | some m => decide (m ≤ e)
def belowMax (maxE : Option ℤ) (e : ℤ) : Bool := match maxE with | none => true | some m => decide (e ≤ m)

/-- Restriction of the event times under `balance_e`, `compute_aggte.py:497-502`. -/
def balFilter (balance : Option ℤ) (cs : List (Cell ι K)) (e : ℤ) : Bool :=
  match balance with
  | none => true
  | some b => decide (b - maxTime cs + minTime cs ≤ e) && decide (e ≤ b)

/-- Event times reported, `compute_aggte.py:480-504`. -/
def eventTimes (balance minE maxE : Option ℤ) (cs : List (Cell ι K)) : List ℤ :=
  ((uniqueSorted ((cs.filter (includeBal balance cs)).map fun c => c.t - c.g)).filter (balFilter balance cs)).filter
    fun e => aboveMin minE e && belowMax maxE e

/-- A share-weighted effect over a mask, `compute_aggte.py:509-541,631-663`. -/
def sharedEff [DecidableEq K] (lk : List ℤ) (G : ι → WithTop ℤ) (w : ι → K) (label : ℤ) (kept : List (RCell ι K)) :
    Eff ι K :=
  if kept.isEmpty then ⟨label, none, fun _ => 0⟩ else ⟨label, combine kept, aggIF lk G w kept⟩

/-- `_compute_dynamic_att`, `compute_aggte.py:456-598`. -/
def dynamicAgg [DecidableEq K] (G : ι → WithTop ℤ) (w : ι → K) (balance minE maxE : Option ℤ)
    (cs : List (Cell ι K)) : AggResult ι K :=
  let lk := lookup cs
  let effs := (eventTimes balance minE maxE cs).map fun e =>
    sharedEff lk G w e ((recode G w cs).filter fun c => decide (c.t - c.g = e) && includeBal balance cs c.toCell)
  let post := effs.filter fun e => decide (0 ≤ e.label)
  { effects := effs
    overall := if post.isEmpty then none else nanMean (post.map Eff.att)
    overallPsi := fun i => (post.map fun e => e.psi i * (1 / (post.length : K))).sum }

/-- `_compute_calendar_att`, `compute_aggte.py:601-717`. -/
def calendarAgg [DecidableEq K] (G : ι → WithTop ℤ) (w : ι → K) (cs : List (Cell ι K)) : AggResult ι K :=
  let lk := lookup cs
  let rc := recode G w cs
  let minG := ((rc.map RCell.rg).min?).getD 0
  let calTimes := ((uniqueSorted (rc.map fun c => (c.rt : ℤ))).map Int.toNat).filter fun t => decide (minG ≤ t)
  let effs := calTimes.map fun t =>
    sharedEff lk G w (t2orig lk t) (rc.filter fun c => decide (c.rt = t) && decide (c.rg ≤ t))
  let valid := effs.filter fun e => e.att.isSome
  { effects := effs
    overall := nanMean (effs.map Eff.att)
    overallPsi := fun i => (valid.map fun e => e.psi i * (1 / (valid.length : K))).sum }

end
end Verif.Agg
