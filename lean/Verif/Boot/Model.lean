import Mathlib.Algebra.BigOperators.Field
import Mathlib.Algebra.BigOperators.Ring.Finset
import Mathlib.Data.Fintype.BigOperators
import Mathlib.Data.List.Sort
import Mathlib.Analysis.Real.Sqrt

/-!
# Bootstrap and standard errors: executable model

Models `moderndid/core/numba_utils.py`, `moderndid/cupy/bootstrap.py`, `moderndid/did/mboot.py` and the analytical
standard errors of `moderndid/did/att_gt.py` and `moderndid/did/compute_aggte.py`.  Arithmetic is exact (no rounding).
-/

namespace Verif.Boot

/-! ## Multipliers, `numba_utils.py:41-42,145-146,300`, `cupy/bootstrap.py:12-15` -/

noncomputable def k1 : ℝ := 0.5 * (1 - √5)
noncomputable def k2 : ℝ := 0.5 * (1 + √5)
noncomputable def pKappa : ℝ := 0.5 * (1 + √5) / √5

/-- `k1 if weights == 1 else k2`. -/
noncomputable def mult (b : Bool) : ℝ := if b then k1 else k2

/-! ## Draws -/

section
variable {K : Type*} [Field K] {κ : Type*}

/-- One row of `_multiplier_bootstrap_impl`, interpreted version (`numba_utils.py:44-46`): the mean over units of
`inf_func * v`. `m1`, `m2` are the two multiplier values; `inf` lists one row (a function of the column) per unit. -/
def drawPy (m1 m2 : K) (inf : List (κ → K)) (bits : List Bool) (j : κ) : K :=
  (List.zipWith (fun r v => r j * v) inf (bits.map fun b => if b then m1 else m2)).sum / (inf.length : K)

/-- Inner loop of the compiled version, `numba_utils.py:150-153`. -/
def drawLoop (m1 m2 : K) (j : κ) : K → List (κ → K) → List Bool → K
  | total, r :: inf, b :: bits => drawLoop m1 m2 j (total + r j * (if b then m1 else m2)) inf bits
  | total, _, _ => total

/-- One row of the compiled version, `numba_utils.py:148-154`. -/
def drawNb (m1 m2 : K) (inf : List (κ → K)) (bits : List Bool) (j : κ) : K :=
  drawLoop m1 m2 j 0 inf bits / (inf.length : K)

/-- One row of the GPU version `(v @ inf_gpu) / n`, `cupy/bootstrap.py:34-35`. -/
def drawGpu (m1 m2 : K) (inf : List (κ → K)) (bits : List Bool) (j : κ) : K :=
  (List.zipWith (fun v r => v * r j) (bits.map fun b => if b then m1 else m2) inf).sum / (inf.length : K)

/-! ## Random numbers and batches -/

/-- A pseudo random generator: one step yields one Bernoulli variate. -/
structure Rng (S : Type*) where
  next : S → Bool × S

/-- `n` variates in sequence. -/
def takeRow {S : Type*} (g : Rng S) : ℕ → S → List Bool × S
  | 0, s => ([], s)
  | n + 1, s => let (b, s) := g.next s; let (l, s) := takeRow g n s; (b :: l, s)

/-- `rng.binomial(1, p, size=(b, n))`: filled row by row. -/
def takeMat {S : Type*} (g : Rng S) (n : ℕ) : ℕ → S → List (List Bool) × S
  | 0, s => ([], s)
  | b + 1, s => let (r, s) := takeRow g n s; let (l, s) := takeMat g n b s; (r :: l, s)

/-- The batch loop, `numba_utils.py:311-317`, `cupy/bootstrap.py:30-36`: `fuel` bounds the number of iterations. -/
def batchLoop {S : Type*} (g : Rng S) (n batch : ℕ) (f : List Bool → κ → K) : ℕ → ℕ → S → List (κ → K)
  | 0, _, _ => []
  | fuel + 1, remaining, s =>
    if remaining = 0 then [] else
    let b := min batch remaining
    let (m, s) := takeMat g n b s
    m.map f ++ batchLoop g n batch f fuel (remaining - b) s

/-- `batch_size`, `numba_utils.py:301-303` (`factor = 1`) and `cupy/bootstrap.py:21-23` (`factor = 16`). -/
def batchSize (factor n biters : ℕ) : ℕ := min (max 1 (2 ^ 30 / (factor * n))) biters

/-- `multiplier_bootstrap` on the CPU, `numba_utils.py:272-317`. -/
def multiplierBootstrap {S : Type*} (g : Rng S) (m1 m2 : K) (inf : List (κ → K)) (biters : ℕ) (s : S) : List (κ → K) :=
  let n := inf.length
  let batch := batchSize 1 n biters
  if batch ≥ biters then (takeMat g n biters s).1.map (drawNb m1 m2 inf)
  else batchLoop g n batch (drawNb m1 m2 inf) biters biters s

/-- `_multiplier_bootstrap_cupy`, `cupy/bootstrap.py:8-38`, for the same variates. -/
def multiplierBootstrapGpu {S : Type*} (g : Rng S) (m1 m2 : K) (inf : List (κ → K)) (biters : ℕ) (s : S) :
    List (κ → K) :=
  batchLoop g inf.length (batchSize 16 inf.length biters) (drawGpu m1 m2 inf) biters biters s

/-! ## Cluster aggregation -/

/-- `np.unique(ids)`. -/
def uniqueIds (ids : List ℤ) : List ℤ := ids.dedup.insertionSort (· ≤ ·)

/-- Interpreted `_compute_cluster_sums_impl`, `numba_utils.py:27-33`. -/
def clusterSumsPy (x : List K) (ids uniq : List ℤ) : List K :=
  uniq.map fun c => (((ids.zip x).filter fun p => decide (p.1 = c)).map Prod.snd).sum

/-- Array index with numba's wrap-around for negative values; `none` is out of bounds (undefined in compiled code). -/
def wrapIdx (size : ℕ) (i : ℤ) : Option ℕ :=
  if 0 ≤ i then (if i < size then some i.toNat else none)
  else if 0 ≤ i + size then some (i + size).toNat else none

/-- `max_cluster`, `numba_utils.py:124-127`: starts at 0. -/
def maxCluster (uniq : List ℤ) : ℤ := uniq.foldl (fun m c => if c > m then c else m) 0

/-- Filling `cluster_to_idx`, `numba_utils.py:129-131`; entries not written hold `-1`. -/
def fillTable (size : ℕ) (uniq : List ℤ) : Option (ℕ → ℤ) :=
  (uniq.zipIdx).foldl (fun t p => t.bind fun t => (wrapIdx size p.1).map fun k => Function.update t k (p.2 : ℤ))
    (some fun _ => -1)

/-- One pass `cluster_sums[c_idx] += influence_func[i]`, `numba_utils.py:133-135`. -/
def accumulate (size nclust : ℕ) (table : ℕ → ℤ) (rows : List (ℤ × K)) : Option (ℕ → K) :=
  rows.foldl (fun acc p => acc.bind fun acc => (wrapIdx size p.1).bind fun k =>
    (wrapIdx nclust (table k)).map fun c => Function.update acc c (acc c + p.2)) (some fun _ => 0)

/-- Compiled `_compute_cluster_sums_impl`, `numba_utils.py:119-137`. -/
def clusterSumsNb (x : List K) (ids uniq : List ℤ) : Option (List K) :=
  let size := (maxCluster uniq + 1).toNat
  (fillTable size uniq).bind fun table =>
    (accumulate size uniq.length table (ids.zip x)).map fun acc => (List.range uniq.length).map acc

/-- `compute_cluster_sums` for integer ids, `numba_utils.py:235-269`. -/
def computeClusterSums (x : List K) (ids : List ℤ) : Option (List K) := clusterSumsNb x ids (uniqueIds ids)

/-- `np.searchsorted(unique, ids)` used for non-integer ids, `numba_utils.py:255-258`, by rank in any linear order. -/
def rankIds {α : Type*} [LinearOrder α] (ids : List α) : List ℤ :=
  ids.map fun a => (((ids.dedup.insertionSort (· ≤ ·)).filter fun b => decide (b < a)).length : ℤ)

/-- Cluster means of one influence column, `numba_utils.py:51-67`, `mboot.py:85-91`. -/
def clusterMeans (x : List K) (ids : List ℤ) : List K :=
  (uniqueIds ids).map fun c =>
    (((ids.zip x).filter fun p => decide (p.1 = c)).map Prod.snd).sum / ((ids.filter fun i => decide (i = c)).length : K)

/-! ## Row gathering, `numba_utils.py:70-83,188-202` -/

/-- Interpreted version: concatenation of the index ranges. -/
def gatherPy (starts counts : List ℕ) (sampled : List ℕ) : List ℕ :=
  sampled.flatMap fun c => (List.range (counts.getD c 0)).map (starts.getD c 0 + ·)

/-- Compiled version: the same with a running position. -/
def gatherNb (starts counts : List ℕ) (sampled : List ℕ) : List ℕ :=
  sampled.foldl (fun acc c => (List.range (counts.getD c 0)).foldl (fun acc j => acc ++ [starts.getD c 0 + j]) acc) []

end

/-! ## Standard errors -/

/-- `V = inf' inf / n`, `se = sqrt(diag(V) / n)`, `att_gt.py:391-392`. -/
noncomputable def seAttGt {n : ℕ} (psi : Fin n → ℝ) : ℝ := √(((∑ i, psi i * psi i) / n) / n)

/-- `np.sqrt(np.mean(influence_function**2) / n_units)`, `compute_aggte.py:894,947`. -/
noncomputable def seAgg {n : ℕ} (psi : Fin n → ℝ) : ℝ := √(((∑ i, psi i ^ 2) / n) / n)

/-- `standard_errors <= sqrt(eps) * 10 -> NaN`, `att_gt.py:393`, `compute_aggte.py:896-897`. -/
noncomputable def seReport (tol se : ℝ) : Option ℝ := open Classical in if se ≤ tol then none else some se

/-- Confidence limits `att ± crit * se` `plots/converters.py:48-49,171-172,223-224`. -/
def band {K : Type*} [Field K] (att crit se : K) : K × K := (att - crit * se, att + crit * se)

end Verif.Boot
