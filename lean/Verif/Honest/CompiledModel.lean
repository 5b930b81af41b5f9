import Verif.Honest.Model

/-!
# Compiled and interpreted helpers: model of `didhonest/numba.py`, and the data-driven bound of `didhonest/bounds.py`

Matrices are functions of row and column with explicit dimensions.  Floating-point special values are modelled where they are
observable: `Bnd` distinguishes an infinite bound, NaN and a number; a raised exception is `none`.
-/

namespace Verif.Honest

open Finset

variable {K : Type*}

/-- `_find_rows_with_post_period_values_impl`, `numba.py:35-38`. -/
def findRowsPy [Zero K] [DecidableEq K] (m : ℕ) (A : ℕ → ℕ → K) (idx : List ℕ) : Option (List ℕ) :=
  let rows := (List.range m).filter fun i => idx.any fun j => decide (A i j ≠ 0)
  if rows.length = 0 then none else some rows

/-- Inner loop with `break`, `numba.py:205-208`: append `i` at the first non-zero entry. -/
def findRowsInner [Zero K] [DecidableEq K] (A : ℕ → ℕ → K) (i : ℕ) : List ℕ → List ℕ → List ℕ
  | [], rows => rows
  | j :: js, rows => if A i j ≠ 0 then rows ++ [i] else findRowsInner A i js rows

/-- The compiled version, `numba.py:201-209`. -/
def findRowsNb [Zero K] [DecidableEq K] (m : ℕ) (A : ℕ → ℕ → K) (idx : List ℕ) : Option (List ℕ) :=
  let rows := (List.range m).foldl (fun rows i => findRowsInner A i idx rows) []
  if rows = [] then none else some rows

section
variable [Field K] [LinearOrder K]

/-- `_safe_divide_impl`, `numba.py:64-70`, one element: `np.divide(..., where=mask)` then `out[~mask] = 0`. -/
def safeDividePy (tol x y : K) : K :=
  let out := if tol ≤ |y| then x / y else 0
  if ¬ tol ≤ |y| then 0 else out

/-- Compiled, `numba.py:241-247`. -/
def safeDivideNb (tol x y : K) : K := if |y| < tol then 0 else x / y

/-- `np.clip(x, lower, upper)`, `numba.py:73-74`: numpy documents `minimum(upper, maximum(x, lower))`. -/
def clipPy (x lower upper : K) : K := min upper (max x lower)

/-- Compiled, `numba.py:249-257`. -/
def clipNb (x lower upper : K) : K := if x < lower then lower else if upper < x then upper else x

/-- `x @ A @ x`, `numba.py:77-78`. -/
def quadPy (n : ℕ) (x : ℕ → K) (A : ℕ → ℕ → K) : K := ∑ j ∈ range n, (∑ i ∈ range n, x i * A i j) * x j

/-- Compiled: row sums, accumulated, `numba.py:259-268`. -/
def quadNb (n : ℕ) (x : ℕ → K) (A : ℕ → ℕ → K) : K :=
  (List.range n).foldl (fun acc i => acc + x i * (List.range n).foldl (fun s j => s + A i j * x j) 0) 0

/-- `beta - np.outer(theta, v)`, entry `(i, j)`, `numba.py:81-82`. -/
def thetaGridPy (y v theta : ℕ → K) (i j : ℕ) : K := y j - theta i * v j

/-- Compiled, `numba.py:270-277`. -/
def thetaGridNb (y v theta : ℕ → K) (i j : ℕ) : K := y j - v j * theta i

/-- `m[i, idx] = 1` for `i, idx in enumerate(selection)` on zeros, `numba.py:99-108`, entry `(i, j)` (rows variant; the columns
variant is its transpose). -/
def selectionPy (sel : List ℕ) (i j : ℕ) : K :=
  sel.zipIdx.foldl (fun m p => fun a b => if a = p.2 ∧ b = p.1 then 1 else m a b) (fun _ _ => 0) i j

/-- Compiled: `for i in range(n): m[i, selection[i]] = 1`, `numba.py:296-306`. -/
def selectionNb (sel : List ℕ) (i j : ℕ) : K :=
  (List.range sel.length).foldl (fun m k => fun a b => if a = k ∧ b = sel.getD k 0 then 1 else m a b) (fun _ _ => 0) i j

/-- `sigma @ eta` and `eta' sigma eta`, `numba.py:92-93,285-286,310-311`. -/
def sigmaEta (n : ℕ) (eta : ℕ → K) (sigma : ℕ → ℕ → K) (j : ℕ) : K := ∑ k ∈ range n, sigma j k * eta k

/-- `eta' sigma eta`. -/
def etaSigmaEta (n : ℕ) (eta : ℕ → K) (sigma : ℕ → ℕ → K) : K := ∑ j ∈ range n, eta j * sigmaEta n eta sigma j

/-- A reported bound. -/
inductive Bnd (K : Type*) where
  | infinite : Bnd K
  | nan : Bnd K
  | fin (x : K) : Bnd K
deriving DecidableEq

/-- `np.max` (numpy propagates NaN; `none` is NaN) of a selection, infinite if the selection is empty, `numba.py:119-122`;
`op` is `max` or `min`. -/
def npReduce (op : K → K → K) (l : List (Option K)) : Bnd K :=
  match l with
  | [] => Bnd.infinite
  | x :: xs =>
    match xs.foldl (fun a b => a.bind fun u => b.map fun w => op u w) x with
    | some r => Bnd.fin r
    | none => Bnd.nan

/-- `_compute_bounds_impl`, `numba.py:111-122`, after `Ac`, `Az` are computed: `obj i = (b - Az) / Ac` where `|Ac| > tol`, NaN
elsewhere. -/
def boundsPy (tol : K) (m : ℕ) (Ac rhs : ℕ → K) : Bnd K × Bnd K :=
  let obj := fun i => if tol < |Ac i| then some (rhs i / Ac i) else none
  (npReduce max (((List.range m).filter fun i => decide (Ac i < 0)).map obj),
    npReduce min (((List.range m).filter fun i => decide (0 < Ac i)).map obj))

/-- `max(lower_bound, x)` / `if x < upper_bound`, starting from an infinite bound. -/
def Bnd.update (op : K → K → K) (x : K) : Bnd K → Bnd K
  | Bnd.infinite => Bnd.fin x
  | Bnd.nan => Bnd.nan
  | Bnd.fin y => Bnd.fin (op y x)

/-- The compiled loop, `numba.py:314-323`. -/
def boundsNb (tol : K) (m : ℕ) (Ac rhs : ℕ → K) : Bnd K × Bnd K :=
  (List.range m).foldl (fun acc i =>
    if tol < |Ac i| then
      if Ac i < 0 then (acc.1.update max (rhs i / Ac i), acc.2)
      else (acc.1, acc.2.update min (rhs i / Ac i))
    else acc) (Bnd.infinite, Bnd.infinite)

/-- `compute_bounds`, interpreted: `none` is the `ValueError` of `_lee_coefficient_impl`, `numba.py:91-96,111-122`. -/
def computeBoundsPy (tol : K) (n m : ℕ) (eta : ℕ → K) (sigma A : ℕ → ℕ → K) (b z : ℕ → K) : Option (Bnd K × Bnd K) :=
  if |etaSigmaEta n eta sigma| < tol then none
  else some (boundsPy tol m (fun i => ∑ j ∈ range n, A i j * (sigmaEta n eta sigma j / etaSigmaEta n eta sigma))
    fun i => b i - ∑ j ∈ range n, A i j * z j)

/-- `compute_bounds`, compiled, for a non-zero `eta' sigma eta` (there is no threshold test), `numba.py:308-323`. -/
def computeBoundsNb (tol : K) (n m : ℕ) (eta : ℕ → K) (sigma A : ℕ → ℕ → K) (b z : ℕ → K) : Option (Bnd K × Bnd K) :=
  some (boundsNb tol m (fun i => ∑ j ∈ range n, A i j * (sigmaEta n eta sigma j / etaSigmaEta n eta sigma))
    fun i => b i - ∑ j ∈ range n, A i j * z j)

/-- Copy of the kept columns, `numba.py:386-391`: `j != num_pre_periods`. -/
def keepCols (p total : ℕ) (row : ℕ → K) (c : ℕ) : K := row (((List.range total).filter (· ≠ p)).getD c 0)

/-- `_create_sdrm_constraint_matrix_impl`, compiled, `numba.py:325-399` (`drop_zero=True`). -/
def sdrmNb (tol : K) (p q : ℕ) (mbar : K) (s : ℤ) (maxPositive : Bool) : List (ℕ → K) :=
  let v := signed maxPositive (set121 ((p : ℤ) + s - 2).toNat)
  let ub := fun i => if i < p - 1 then v else fun j => mbar * v j
  let upper := (List.range (p + q - 1)).map fun i => fun j => set121 i j - ub i j
  let lower := (List.range (p + q - 1)).map fun i => fun j => -set121 i j - ub i j
  ((upper ++ lower).filter fun a =>
    decide (tol < (List.range (p + q + 1)).foldl (fun acc j => acc + a j ^ 2) 0)).map (keepCols p (p + q + 1))

/-! ## Data-driven smoothness bound -/

/-- `np.max` of a list. -/
def maxList : List K → Option K
  | [] => none
  | x :: xs => some (xs.foldl max x)

/-- `compute_delta_sd_upperbound_m`, `bounds.py:53-68`: `margin r` is the quantile times the standard error of second difference
`r`; `none` is the `ValueError` for fewer than three pre-periods. -/
def upperM (p : ℕ) (beta margin : ℕ → K) : Option K :=
  if p < 3 then none
  else maxList (List.zipWith (fun (a : ℕ → K) r => dotN p a beta + margin r) (boundsSecondDiffPy p 0)
    (List.range (boundsSecondDiffPy (K := K) p 0).length))

/-- `create_pre_period_constraint_matrix`, `bounds.py:201-217`; `none` is the `ValueError`. -/
def prePeriodMatrix (p : ℕ) : Option (List (ℕ → K)) :=
  if p < 2 then none
  else some (pm ((List.range (p - 1)).map fun r =>
    if r = p - 2 then (if 2 < p then setSlice (p - 3) [1, -2, 1] fun _ => 0 else setSlice (p - 2) [1, -1] fun _ => 0)
    else if r < p - 3 then setSlice r [1, -2, 1] fun _ => 0 else fun _ => 0))

end

end Verif.Honest
