import Verif.Triple.Multi
import Verif.Agg.Model

/-!
# Aggregation of triple-difference estimates: executable model

`moderndid/didtriple/compute_agg_ddd.py`: point estimates and influence values.  Estimates are numbers (a NaN estimate is
never produced by `ddd_mp`), so `dropna` only acts through the list of cohorts.  Not modelled: bootstrap, critical values.
-/

namespace Verif.Triple

variable {ι K : Type*}

/-- What the aggregation reads from the result of `ddd_mp`, `compute_agg_ddd.py:77-84`: estimates with label and
influence column, cohorts and periods of the data, cohort of every unit (`⊤` = never treated). -/
structure DIn (ι K : Type*) where
  cells : List (Agg.Cell ι K)
  glist : List ℤ
  tlist : List ℤ
  G : ι → WithTop ℤ

/-- `dropna=True`, `compute_agg_ddd.py:101-120`. -/
def dropMissing (isGroup : Bool) (d : DIn ι K) : DIn ι K :=
  let cells := if isGroup then
      d.cells.filter fun c => d.cells.any fun c' => decide (c'.g = c.g) && decide (c'.g ≤ c'.t)
    else d.cells
  { d with cells := cells, glist := Agg.uniqueSorted (cells.map Agg.Cell.g) }

/-- `orig_gtlist`, `compute_agg_ddd.py:126`. -/
def dLookup (d : DIn ι K) : List ℤ := Agg.uniqueSorted (d.tlist ++ d.glist)

section
variable [Fintype ι] [Field K]

/-- `np.mean(unit_groups == g)`, `compute_agg_ddd.py:135`. -/
def dShare (d : DIn ι K) (g : ℤ) : K := Agg.avg fun i => if d.G i = (g : WithTop ℤ) then 1 else 0

/-- `pg_obs` of a cell, `compute_agg_ddd.py:137-139`. -/
def pgObs (d : DIn ι K) (c : Agg.Cell ι K) : K := if c.g ∈ d.glist then dShare d c.g else 0

/-- `sum(pg_obs[whichones])`. -/
def dSum (d : DIn ι K) (kept : List (Agg.Cell ι K)) : K := (kept.map (pgObs d)).sum

/-- Share-weighted estimate, `compute_agg_ddd.py:213,342-343,441-442`; `none` is NaN (division by a zero sum). -/
def dMean [DecidableEq K] (d : DIn ι K) (kept : List (Agg.Cell ι K)) : Option K :=
  if dSum d kept = 0 then none else some ((kept.map fun c => c.att * pgObs d c).sum / dSum d kept)

/-- `_get_agg_inf_func` with weights `pg / pg.sum()`, `compute_agg_ddd.py:218-219,614-617`. -/
def dPsi (d : DIn ι K) (kept : List (Agg.Cell ι K)) (i : ι) : K :=
  (kept.map fun c => c.psi i * (pgObs d c / dSum d kept)).sum

/-- `(group <= t) & (t <= group + max_e)` on recoded values, `compute_agg_ddd.py:141`. -/
def dPost (maxE : Option ℤ) (d : DIn ι K) (c : Agg.Cell ι K) : Bool :=
  decide (Agg.code (dLookup d) c.g ≤ Agg.code (dLookup d) c.t) &&
    Agg.withinMax maxE (Agg.code (dLookup d) c.g) (Agg.code (dLookup d) c.t)

/-- `_compute_simple`, `compute_agg_ddd.py:211-234`. -/
def dSimple [DecidableEq K] (maxE : Option ℤ) (d : DIn ι K) : Option K × (ι → K) :=
  let kept := d.cells.filter (dPost maxE d)
  (dMean d kept, dPsi d kept)

/-- One cohort effect, `compute_agg_ddd.py:261-272`. -/
def dGroupEff (maxE : Option ℤ) (d : DIn ι K) (g : ℤ) : Agg.Eff ι K :=
  let kept := d.cells.filter fun c => decide (Agg.code (dLookup d) c.g = Agg.code (dLookup d) g) && dPost maxE d c
  if kept.isEmpty then ⟨g, none, fun _ => 0⟩
  else ⟨g, some ((kept.map Agg.Cell.att).sum / (kept.length : K)), dPsi d kept⟩

/-- `_get_weight_influence`, `compute_agg_ddd.py:584-593`: unit `i`, cohort `g`. -/
def dWif (d : DIn ι K) (g : ℤ) (i : ι) : K :=
  let err := fun h : ℤ => (if d.G i = (h : WithTop ℤ) then 1 else 0) - dShare d h
  let s := (d.glist.map (dShare d)).sum
  err g / s - (d.glist.map err).sum * (dShare d g / s ^ 2)

/-- `_compute_group`, `compute_agg_ddd.py:237-311`. -/
def dGroup [DecidableEq K] (maxE : Option ℤ) (d : DIn ι K) : Agg.AggResult ι K :=
  let effs := d.glist.map (dGroupEff maxE d)
  let s := (d.glist.map (dShare d)).sum
  { effects := effs
    overall := if s = 0 then none else some ((effs.map fun e => e.att.getD 0 * dShare d e.label).sum / s)
    overallPsi := fun i => (effs.map fun e => e.psi i * (dShare d e.label / s)).sum +
      (effs.map fun e => dWif d e.label i * e.att.getD 0).sum }

/-- One effect over a mask, `compute_agg_ddd.py:341-347,440-446`. -/
def dEff [DecidableEq K] (d : DIn ι K) (label : ℤ) (kept : List (Agg.Cell ι K)) : Agg.Eff ι K :=
  if kept.isEmpty then ⟨label, none, fun _ => 0⟩ else ⟨label, dMean d kept, dPsi d kept⟩

/-- `_compute_calendar`, `compute_agg_ddd.py:314-390`. -/
def dCalendar [DecidableEq K] (d : DIn ι K) : Agg.AggResult ι K :=
  let lk := dLookup d
  let minG := ((d.cells.map fun c => Agg.code lk c.g).min?).getD 0
  let ts := ((Agg.uniqueSorted (d.cells.map fun c => (Agg.code lk c.t : ℤ))).map Int.toNat).filter
    fun t => decide (minG ≤ t)
  let effs := ts.map fun t => dEff d (Agg.t2orig lk t) (d.cells.filter fun c =>
    decide (Agg.code lk c.t = t) && decide (Agg.code lk c.g ≤ Agg.code lk c.t))
  { effects := effs
    overall := Agg.nanMean (effs.map Agg.Eff.att)
    overallPsi := fun i => (effs.map fun e => e.psi i * (1 / (effs.length : K))).sum }

/-- `_compute_eventstudy`, `compute_agg_ddd.py:393-492`, without `balance_e`. -/
def dEvent [DecidableEq K] (minE maxE : Option ℤ) (d : DIn ι K) : Agg.AggResult ι K :=
  let es := (Agg.uniqueSorted (d.cells.map fun c => c.t - c.g)).filter fun e => Agg.aboveMin minE e && Agg.belowMax maxE e
  let effs := es.map fun e => dEff d e (d.cells.filter fun c => decide (c.t - c.g = e))
  let post := effs.filter fun e => decide (0 ≤ e.label)
  { effects := effs
    overall := if post.isEmpty then none else Agg.nanMean (post.map Agg.Eff.att)
    overallPsi := fun i => (post.map fun e => e.psi i * (1 / (post.length : K))).sum }

end

/-! ## From `ddd_mp` to the aggregation -/

/-- The fields of a `ddd_mp` result as the aggregation reads them; units are the positions in the sorted id list. -/
def toDIn [Field K] (r : MpResult K) : DIn (Fin r.ids.length) K where
  cells := (List.finRange r.entries.length).map fun (k : Fin r.entries.length) =>
    ⟨r.entries[k].g, r.entries[k].t, r.entries[k].att, fun i => r.mat k (r.ids[i])⟩
  glist := r.glist
  tlist := r.tlist
  G := fun i => match r.unitG (r.ids[i]) with
    | none => ⊤
    | some g => (g : WithTop ℤ)

end Verif.Triple
