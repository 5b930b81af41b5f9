import Mathlib.Algebra.Order.Field.Basic
import Mathlib.Data.List.Sort
import Mathlib.Data.List.GetD
import Mathlib.Algebra.BigOperators.Group.List.Basic

set_option linter.unusedSectionVars false

/-!
# Quantile constraints of the calibrated propensity score

Models `_weighted_quantile`, `_add_quantile_constraints` and the column selection of `_remove_collinear_columns`
(`moderndid/drdid/propensity/pscore_ipt.py:298-386`).  The pivoted QR decomposition is not computed: its pivot order and
the numerical rank are arguments.
-/

namespace Verif.DR.Quant

variable {K : Type*} [Field K] [LinearOrder K]

/-- `np.cumsum`. -/
def cumsum : List K → List K
  | [] => []
  | a :: l => a :: (cumsum l).map (a + ·)

/-- `np.searchsorted(c, x)` (left) on a nondecreasing array: how many leading entries are below `x`, line 370. -/
def searchsorted (c : List K) (x : K) : ℕ := (c.takeWhile (fun a => decide (a < x))).length

/-- Lines 364-386, on the (value, weight) pairs in sorted order.  `cum_weights[-1]` is the last cumulated weight. -/
def quantileSorted (s : List (K × K)) (q : K) : K :=
  let c := cumsum (s.map Prod.snd)
  let v := s.map Prod.fst
  let qw := q * c.getD (c.length - 1) 0
  let idx := searchsorted c qw
  if idx = 0 then v.getD 0 0
  else if v.length ≤ idx then v.getD (v.length - 1) 0
  else
    let wb := c.getD (idx - 1) 0
    let wa := c.getD idx 0
    if wa = wb then v.getD idx 0
    else v.getD (idx - 1) 0 + (qw - wb) / (wa - wb) * (v.getD idx 0 - v.getD (idx - 1) 0)

/-- `_weighted_quantile(values, q, weights)`, lines 358-386; `np.argsort` is modelled by a stable sort (the order of ties
is immaterial for the theorems that do not mention ties). -/
def weightedQuantile (values weights : List K) (q : K) : K :=
  quantileSorted ((values.zip weights).insertionSort (fun a b => a.1 ≤ b.1)) q

/-- `_remove_collinear_columns`, lines 298-324: the pivot order `P` and numerical rank come from the QR decomposition. -/
def removeCollinear (cols : List (List K)) (P : List ℕ) (rank : ℕ) : List (List K) :=
  if cols.length = 1 then cols
  else if rank = cols.length then cols
  else (P.take rank).map (fun j => cols.getD j [])

/-- The new columns built for one entry `col_idx: q_list`, lines 331-350. -/
def quantileFeatures (cols : List (List K)) (iw : List K) (j : ℕ) (qs : List K) : List (List K) :=
  if cols.length ≤ j then []
  else if j = 0 ∧ ∀ a ∈ cols.getD 0 [], a = (cols.getD 0 []).getD 0 0 then []
  else (qs.filter (fun q => decide (0 < q ∧ q < 1))).map (fun q =>
    (cols.getD j []).map (fun a => if a ≤ weightedQuantile (cols.getD j []) iw q then 1 else 0))

/-- `_add_quantile_constraints`, lines 327-355. -/
def addQuantile (cols : List (List K)) (quantiles : List (ℕ × List K)) (iw : List K) : List (List K) :=
  cols ++ quantiles.flatMap (fun e => quantileFeatures cols iw e.1 e.2)

/-- The design used for the calibrated score, lines 110-113. -/
def design (cols : List (List K)) (P : List ℕ) (rank : ℕ) (quantiles : Option (List (ℕ × List K))) (iw : List K) :
    List (List K) :=
  match quantiles with
  | none => removeCollinear cols P rank
  | some qs => addQuantile (removeCollinear cols P rank) qs iw

end Verif.DR.Quant
