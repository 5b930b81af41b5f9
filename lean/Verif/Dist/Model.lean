import Mathlib.Algebra.BigOperators.Field
import Mathlib.Algebra.BigOperators.Ring.Finset
import Mathlib.Algebra.Order.Field.Basic
import Mathlib.Data.Rat.Floor
import Mathlib.Data.Fintype.BigOperators
import Mathlib.Data.List.Basic

/-!
# Distributed computation: executable model

Models `moderndid/distributed/{_gram, _utils, _regression, _did_partition, _bootstrap}.py`, the reductions of
`moderndid/dask/_gram.py` and the drivers `moderndid/spark/_did_streaming.py:151-205,295-475` (the Dask drivers run the
same steps), together with the single-machine `moderndid/cupy/regression.py`.  Arithmetic is exact; `np.linalg.solve` and
`np.linalg.inv` are oracles.  A partition is the list of its rows.
-/

namespace Verif.Dist

/-! ## Blocked Gram matrix, `distributed/_gram.py:10-62` -/

section Gram
variable {K : Type*} [Field K]

/-- Python's `range(start, stop, step)`. -/
def pyRange (start stop step : ℕ) : List ℕ :=
  (List.range ((stop - start + step - 1) / step)).map fun q => start + step * q

/-- `XtW @ X` with `XtW = X.T * w`, `_gram.py:41-42`: entry `(a, b)`. -/
def plainGram (n : ℕ) (X : ℕ → ℕ → K) (w : ℕ → K) (a b : ℕ) : K := ∑ r ∈ Finset.range n, (X r a * w r) * X r b

/-- `XtW @ z`, `_gram.py:44`. -/
def plainRhs (n : ℕ) (X : ℕ → ℕ → K) (w z : ℕ → K) (a : ℕ) : K := ∑ r ∈ Finset.range n, (X r a * w r) * z r

/-- `g[i : i + bi, j : j + bj] = v` (local coordinates of `v`). -/
def setBlock (g : ℕ → ℕ → K) (i bi j bj : ℕ) (v : ℕ → ℕ → K) (a b : ℕ) : K :=
  if i ≤ a ∧ a < i + bi ∧ j ≤ b ∧ b < j + bj then v (a - i) (b - j) else g a b

/-- `r[i : i + bi] = v`. -/
def setSlice (g : ℕ → K) (i bi : ℕ) (v : ℕ → K) (a : ℕ) : K :=
  if i ≤ a ∧ a < i + bi then v (a - i) else g a

/-- Body of the inner loop, `_gram.py:55-58`. -/
def gramInner (n k bs : ℕ) (X : ℕ → ℕ → K) (w : ℕ → K) (i : ℕ) (g : ℕ → ℕ → K) (j : ℕ) : ℕ → ℕ → K :=
  let bi := min bs (k - i)
  let bj := min bs (k - j)
  let g := setBlock g i bi j bj fun p q => ∑ r ∈ Finset.range n, (X r (i + p) * w r) * X r (j + q)
  if i ≠ j then setBlock g j bj i bi fun q p => g (i + p) (j + q) else g

/-- Body of the outer loop, `_gram.py:50-58`; the state is `(gram, rhs)`. -/
def gramOuter (n k bs : ℕ) (X : ℕ → ℕ → K) (w z : ℕ → K) (s : (ℕ → ℕ → K) × (ℕ → K)) (i : ℕ) :
    (ℕ → ℕ → K) × (ℕ → K) :=
  let bi := min bs (k - i)
  let rhs := setSlice s.2 i bi fun p => ∑ r ∈ Finset.range n, (X r (i + p) * w r) * z r
  ((pyRange i k bs).foldl (gramInner n k bs X w i) s.1, rhs)

/-- `weighted_gram`, `_gram.py:37-62`: `n` rows, `k` columns. -/
def weightedGram (n k bs : ℕ) (X : ℕ → ℕ → K) (w z : ℕ → K) : (ℕ → ℕ → K) × (ℕ → K) :=
  if k ≤ bs then (plainGram n X w, plainRhs n X w z)
  else (pyRange 0 k bs).foldl (gramOuter n k bs X w z) (fun _ _ => 0, fun _ => 0)

end Gram

/-! ## Reductions -/

section Reduce
variable {V : Type*}

/-- `_sum_gram_pair_or_none`, `_regression.py:26-32`, and `sum_global_stats`, `_utils.py:39-64` (dictionaries with the
same keys and no `None` values): `None` is ignored, otherwise the entries are added. -/
def optAdd [Add V] : Option V → Option V → Option V
  | none, b => b
  | a, none => a
  | some a, some b => some (a + b)

/-- Body of the loop of `_reduce_gram_list`, `_utils.py:108-111`. -/
def gramStep [Add V] (result item : Option V) : Option V :=
  match item, result with
  | none, r => r
  | some v, none => some v
  | some v, some r => some (r + v)

/-- `_reduce_gram_list`, `_utils.py:94-112`. -/
def reduceGramList [Add V] (l : List (Option V)) : Option V := l.foldl gramStep none

/-- `_reduce_group`, `_gram.py:113-118`. -/
def reduceGroup (f : V → V → V) : List V → Option V
  | [] => none
  | a :: l => some (l.foldl f a)

/-- Consecutive groups of `s` elements: `futures[i : i + split_every] for i in range(0, len, split_every)`,
`dask/_gram.py:40-41`. -/
def chunks (s : ℕ) : ℕ → List V → List (List V)
  | 0, _ => []
  | _, [] => []
  | fuel + 1, l => l.take s :: chunks s fuel (l.drop s)

/-- One pass of `tree_reduce`, `dask/_gram.py:39-46`. -/
def treePass (f : V → V → V) (s : ℕ) (l : List V) : List V := (chunks s l.length l).filterMap (reduceGroup f)

/-- `tree_reduce`, `dask/_gram.py:13-47`; `fuel` bounds the number of passes, `none` is the `IndexError` on no input or
an exhausted bound. -/
def treeReduce (f : V → V → V) (s : ℕ) : ℕ → List V → Option V
  | _, [] => none
  | _, [a] => some a
  | 0, _ => none
  | fuel + 1, l => treeReduce f s fuel (treePass f s l)

/-- An arbitrary reduction order (`rdd.treeReduce`, `functools.reduce`, ...): a binary tree over the inputs. -/
inductive RTree (V : Type*)
  | leaf (v : V)
  | node (l r : RTree V)

def RTree.eval (f : V → V → V) : RTree V → V
  | leaf v => v
  | node l r => f (l.eval f) (r.eval f)

def RTree.leaves : RTree V → List V
  | leaf v => [v]
  | node l r => l.leaves ++ r.leaves

end Reduce

/-! ## Regressions -/

section Reg
variable {κ K : Type*} [Fintype κ] [Field K]

/-- One observation of a regression: covariates, response, weight. -/
structure Obs (κ K : Type*) where
  x : κ → K
  y : K
  w : K

/-- `X @ beta` for one row. -/
def eta (x β : κ → K) : K := ∑ k, x k * β k

/-- Gram triple `(X'WX, X'Wz, n)`. -/
abbrev Triple (κ K : Type*) := (κ → κ → K) × (κ → K) × ℕ

/-- `weighted_gram(X, W, z)` and the row count for one partition with row weights `W` and responses `z`; blocks do not
matter (`C43`). -/
def gramOf {R : Type*} (x : R → κ → K) (W z : R → K) (p : List R) : Triple κ K :=
  (fun a b => (p.map fun r => (x r a * W r) * x r b).sum, fun a => (p.map fun r => (x r a * W r) * z r).sum, p.length)

/-- IRLS working weight and response, `_regression.py:17-21`, `_did_partition.py:156-160`, `cupy/regression.py:66-70`;
`mu` is the clipped logistic function. -/
def irlsW (mu : K → K) (β : κ → K) (r : Obs κ K) : K := r.w * mu (eta r.x β) * (1 - mu (eta r.x β))
def irlsZ (mu : K → K) (β : κ → K) (r : Obs κ K) : K :=
  eta r.x β + (r.y - mu (eta r.x β)) / (mu (eta r.x β) * (1 - mu (eta r.x β)))

/-- `_partition_did_pscore_gram` / `_irls_local_stats_with_y`: `None` for an empty partition. -/
def irlsGram (mu : K → K) (β : κ → K) (p : List (Obs κ K)) : Option (Triple κ K) :=
  if p = [] then none else some (gramOf Obs.x (irlsW mu β) (irlsZ mu β) p)

/-- Oracle for `np.linalg.solve`; `none` is `LinAlgError`. -/
abbrev Solver (κ K : Type*) := (κ → κ → K) → (κ → K) → Option (κ → K)

/-- `logistic_irls_from_partition_list`, `_regression.py:92-107`, with the reduction as a parameter
(`_reduce_gram_list`, or `tree_reduce` in `dask/_regression.py:125-139`). `stop βnew β` is `max |βnew - β| < tol`.
The first component lists the iterates. -/
def irlsDist (reduce : List (Option (Triple κ K)) → Option (Triple κ K)) (solve : Solver κ K) (mu : K → K)
    (stop : (κ → K) → (κ → K) → Bool) (parts : List (List (Obs κ K))) : ℕ → (κ → K) → Option (List (κ → K) × (κ → K))
  | 0, β => some ([], β)
  | fuel + 1, β =>
    match reduce (parts.map (irlsGram mu β)) with
    | none => some ([], β)
    | some g => match solve g.1 g.2.1 with
      | none => none
      | some βn => if stop βn β then some ([βn], βn)
        else (irlsDist reduce solve mu stop parts fuel βn).map fun s => (βn :: s.1, s.2)

/-- `cupy_logistic_irls`, `cupy/regression.py:64-77`: one machine, all rows. -/
def irlsLocal (solve : Solver κ K) (mu : K → K) (stop : (κ → K) → (κ → K) → Bool) (rows : List (Obs κ K)) :
    ℕ → (κ → K) → Option (List (κ → K) × (κ → K))
  | 0, β => some ([], β)
  | fuel + 1, β =>
    match solve (fun a b => (rows.map fun r => r.x a * (irlsW mu β r * r.x b)).sum)
        (fun a => (rows.map fun r => r.x a * (irlsW mu β r * irlsZ mu β r)).sum) with
    | none => none
    | some βn => if stop βn β then some ([βn], βn)
      else (irlsLocal solve mu stop rows fuel βn).map fun s => (βn :: s.1, s.2)

/-- `wls_from_partition_list`, `_regression.py:59-64`, with the partition Gram `_partition_did_or_gram`
(`_did_partition.py:165-180`: only selected rows, `None` when there is none). `none` is an exception. -/
def wlsDist {R : Type*} (reduce : List (Option (Triple κ K)) → Option (Triple κ K)) (solve : Solver κ K)
    (sel : R → Bool) (x : R → κ → K) (y w : R → K) (parts : List (List R)) : Option (κ → K) :=
  match reduce (parts.map fun p => if p.filter sel = [] then none else some (gramOf x w y (p.filter sel))) with
  | none => none
  | some g => solve g.1 g.2.1

/-- `cupy_wls` on the selected rows, `cupy/regression.py:29-31`. -/
def wlsLocal {R : Type*} (solve : Solver κ K) (sel : R → Bool) (x : R → κ → K) (y w : R → K) (rows : List R) :
    Option (κ → K) :=
  solve (fun a b => ((rows.filter sel).map fun r => (x r a * w r) * x r b).sum)
    (fun a => ((rows.filter sel).map fun r => (x r a * w r) * y r).sum)

end Reg

/-! ## Covariance and tuning, `distributed/_utils.py` -/

section Utils
variable {K : Type*} [Field K]

/-- `chunk.T @ chunk` of a list of rows. -/
def cross {κ : Type*} (rows : List (κ → K)) (a b : κ) : K := (rows.map fun r => r a * r b).sum

/-- `for start in range(0, n_rows, size): V += chunk.T @ chunk`, `_utils.py:86-89`. -/
def vcovLoop {κ : Type*} (size : ℕ) (rows : List (κ → K)) : List ℕ → (κ → κ → K) → κ → κ → K
  | [], V => V
  | start :: l, V => vcovLoop size rows l fun a b => V a b + cross ((rows.drop start).take size) a b

/-- `chunked_vcov`, `_utils.py:67-91`. -/
def chunkedVcov {κ : Type*} (threshold size : ℕ) (rows : List (κ → K)) (nUnits : K) : κ → κ → K :=
  if rows.length ≤ threshold then fun a b => cross rows a b / nUnits
  else fun a b => vcovLoop size rows (pyRange 0 rows.length size) (fun _ _ => 0) a b / nUnits

/-- `compute_variance_distributed`, `dask/_inf_func.py:41-48`: the variance whose root is the standard error. -/
def varDist {κ : Type*} (parts : List (List (κ → K))) (n : K) (a : κ) : K :=
  (match reduceGramList (parts.map fun p => some (fun b c : κ => cross p b c)) with
    | none => 0
    | some g => g a a) / n / n

/-- `auto_tune_partitions`, `_utils.py:12-36` (exact division). -/
def autoTune (nDefault nUnits k target : ℕ) : ℕ :=
  let partBytes : ℚ := (nUnits : ℚ) / (max nDefault 1 : ℕ) * k * 8
  if partBytes ≤ target then nDefault
  else max nDefault ⌈(nUnits : ℚ) * k * 8 / target⌉₊

end Utils

/-! ## Distributed bootstrap draws, `distributed/_bootstrap.py:10-31,55` -/

section BootDist
variable {K : Type*} [Field K] {κ : Type*}

/-- One row of `_local_bootstrap`: the sum (not the mean) of multiplier times influence value. -/
def localDraw (m1 m2 : K) (inf : List (κ → K)) (bits : List Bool) (j : κ) : K :=
  (List.zipWith (fun r v => r j * v) inf (bits.map fun b => if b then m1 else m2)).sum

/-- `total_bres / n_total` after reduction over partitions. -/
def distDraw (m1 m2 : K) (parts : List (List (κ → K) × List Bool)) (n : K) (j : κ) : K :=
  (parts.map fun p => localDraw m1 m2 p.1 p.2 j).sum / n

end BootDist

/-! ## One DiD cell on partitioned data -/

inductive Method | dr | reg | ipw
  deriving DecidableEq, Repr

section Cell
variable {κ K : Type*} [Fintype κ] [Field K] [LinearOrder K]

/-- One unit of a panel cell, `_did_partition.py:38-47`. -/
structure PRow (κ K : Type*) where
  x : κ → K
  d : Bool
  y1 : K
  y0 : K
  w : K

def PRow.dy (r : PRow κ K) : K := r.y1 - r.y0

/-- 0/1 value of the treatment indicator. -/
def dnum {K : Type*} [Field K] (b : Bool) : K := if b then 1 else 0

/-- Clipped propensity score, `_did_partition.py:207-210,291-294`: `σ` is the logistic function,
`clip` to `[lo, hi]`, then `minimum` with `cap`. -/
def pscore (σ : K → K) (lo hi cap : K) (β : κ → K) (x : κ → K) : K := min (min (max (σ (eta x β)) lo) hi) cap

/-- Clipped propensity score of the single-machine estimator, `drdid_panel.py:272` (same line in the other local
estimators). -/
def localPscore (σ : K → K) (lo cap : K) (β : κ → K) (x : κ → K) : K := min (max (σ (eta x β)) lo) cap

/-- Scores per method: `reg` uses ones. -/
def psM (m : Method) (ps : (κ → K) → K) (x : κ → K) : K := if m = .reg then 1 else ps x

/-- `keep_ps`, `_did_partition.py:205,211-212`. -/
def keepM (m : Method) (level : K) (ps : (κ → K) → K) (r : PRow κ K) : K :=
  if m = .reg then 1 else if r.d then 1 else if ps r.x < level then 1 else 0

/-- `or_delta`, `_did_partition.py:215,298`. -/
def outM (m : Method) (β : κ → K) (x : κ → K) : K := if m = .ipw then 0 else eta x β

/-- `w_treat`, `_did_partition.py:217,300`. -/
def wT (m : Method) (level : K) (ps : (κ → K) → K) (r : PRow κ K) : K := keepM m level ps r * dnum r.d * r.w

/-- `w_control`, `_did_partition.py:218,301`. -/
def wC (m : Method) (level : K) (ps : (κ → K) → K) (r : PRow κ K) : K :=
  if m = .reg then keepM m level ps r * (1 - dnum r.d) * r.w
  else keepM m level ps r * psM m ps r.x * (1 - dnum r.d) / (1 - psM m ps r.x) * r.w

/-- Scalar, vector and matrix keys of the statistics dictionary, `_did_partition.py:223-245`. -/
inductive PS | wT | wC | rT | rC
inductive PV | wtX | wcX | wcdyX
inductive PM | xpx | info

/-- A dictionary of sums with the row count. -/
abbrev Stats (S V M κ K : Type*) := (S → K) × (V → κ → K) × (M → κ → κ → K) × ℕ

/-- `_partition_did_global_stats`, `_did_partition.py:183-247`. -/
def partStats (m : Method) (level : K) (ps : (κ → K) → K) (β : κ → K) (p : List (PRow κ K)) :
    Option (Stats PS PV PM κ K) :=
  let res := fun r : PRow κ K => r.dy - outM m β r.x
  if p = [] then none else some
    (fun s => match s with
      | .wT => (p.map (wT m level ps)).sum
      | .wC => (p.map (wC m level ps)).sum
      | .rT => (p.map fun r => wT m level ps r * res r).sum
      | .rC => (p.map fun r => wC m level ps r * res r).sum,
     fun v k => match v with
      | .wtX => (p.map fun r => wT m level ps r * r.x k).sum
      | .wcX => (p.map fun r => wC m level ps r * r.x k).sum
      | .wcdyX => (p.map fun r => wC m level ps r * res r * r.x k).sum,
     fun q a b => match q with
      | .xpx => (p.map fun r => (r.x a * ((if r.d then 0 else 1) * r.w)) * r.x b).sum
      | .info => if m = .reg then 0 else
          (p.map fun r => (r.x a * (r.w * psM m ps r.x * (1 - psM m ps r.x))) * r.x b).sum,
     p.length)

/-- Result of `_finalize_global_stats`, `_did_partition.py:973-1017`. -/
structure Global (κ K : Type*) where
  mwT : K
  mwC : K
  attT : K
  attC : K
  att : K
  hm2 : κ → K
  xim1 : κ → K
  xim3 : κ → K

/-- Matrix times vector. -/
def mulV (M : κ → κ → K) (v : κ → K) (a : κ) : K := ∑ b, M a b * v b

/-- `_finalize_global_stats`, `_did_partition.py:943-1017`; `inv` is the matrix inverse (or pseudo inverse) oracle. -/
def finalize (m : Method) (inv : (κ → κ → K) → κ → κ → K) (agg : Option (Stats PS PV PM κ K)) : Option (Global κ K) :=
  agg.bind fun g =>
    let n : K := (g.2.2.2 : ℕ)
    if g.2.2.2 = 0 then none else
    let mwT := g.1 .wT / n
    let mwC := g.1 .wC / n
    let attT := if mwT > 0 then (g.1 .rT / n) / mwT else 0
    let attC := if mwC > 0 then (g.1 .rC / n) / mwC else 0
    let m2 := fun k => (g.2.1 .wcdyX k - attC * g.2.1 .wcX k) / n
    let xpxInv := inv fun a b => g.2.2.1 .xpx a b / n
    some {
      mwT := mwT, mwC := mwC, attT := attT, attC := attC, att := attT - attC
      hm2 := if m = .reg then fun _ => 0 else mulV (fun a b => inv (g.2.2.1 .info) a b * n) m2
      xim1 := if m = .ipw then fun _ => 0 else mulV xpxInv fun k => g.2.1 .wtX k / n
      xim3 := if m = .ipw then fun _ => 0 else mulV xpxInv fun k => g.2.1 .wcX k / n }

/-- `_partition_compute_did_if`, one row, `_did_partition.py:285-324`. -/
def rowIF (m : Method) (level : K) (ps : (κ → K) → K) (β : κ → K) (g : Global κ K) (r : PRow κ K) : K :=
  let res := r.dy - outM m β r.x
  let infT1 := wT m level ps r * res - wT m level ps r * g.attT
  let infC1 := wC m level ps r * res - wC m level ps r * g.attC
  let infCps := if m = .reg then 0 else ∑ k, (r.w * (dnum r.d - psM m ps r.x)) * r.x k * g.hm2 k
  let orEx := fun k => ((if r.d then 0 else 1) * r.w * res) * r.x k
  let infTor := if m = .ipw then 0 else -(∑ k, orEx k * g.xim1 k)
  let infCor := if m = .ipw then 0 else -(∑ k, orEx k * g.xim3 k)
  (infT1 + infTor) / g.mwT - (infC1 + infCps + infCor) / g.mwC

/-- `streaming_did_global_stats`, `spark/_did_streaming.py:764-779`: statistics of all partitions, left-to-right sum. -/
def cellGlobal (m : Method) (inv : (κ → κ → K) → κ → κ → K) (level : K) (ps : (κ → K) → K) (β : κ → K)
    (parts : List (List (PRow κ K))) : Option (Global κ K) :=
  finalize m inv ((parts.map (partStats m level ps β)).foldl optAdd none)

/-- One cell: the estimate and the influence values of all units in partition order,
`spark/_did_streaming.py:170-205` (before the scaling by `n_units / n_cell`). -/
def cellDist (m : Method) (inv : (κ → κ → K) → κ → κ → K) (level : K) (ps : (κ → K) → K) (β : κ → K)
    (parts : List (List (PRow κ K))) : Option (K × List K) :=
  (cellGlobal m inv level ps β parts).map fun g => (g.att, parts.flatMap fun p => p.map (rowIF m level ps β g))

end Cell

end Verif.Dist
