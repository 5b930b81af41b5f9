import Mathlib.Algebra.BigOperators.Intervals
import Mathlib.Algebra.Order.Field.Basic
import Mathlib.Algebra.Order.BigOperators.Group.Finset
import Mathlib.Logic.Function.Basic
import Mathlib.Data.Int.Order.Basic

/-!
# Sensitivity analysis (`didhonest`): executable model

Constraint matrices and identified sets of `moderndid/didhonest/{numba,bounds}.py`,
`didhonest/delta/{sd,rm,sdrm}/*.py`.  A matrix is the list of its rows, a row a function of the column index (read below the
number of columns only).  `p = num_pre_periods`, `q = num_post_periods`.  Arithmetic is exact; numerical thresholds are
parameters.  Not modelled: confidence sets (ARP, FLCI), the linear-programming solver itself (its contract is stated).
-/

namespace Verif.Honest

open Finset

variable {K : Type*}

/-- Matrix row times vector, over the `n` columns. -/
def dotN [Semiring K] (n : ℕ) (a v : ℕ → K) : K := ∑ j ∈ range n, a j * v j

/-- `row[r : r + len(l)] = l`. -/
def setSlice (r : ℕ) (l : List K) (row : ℕ → K) (j : ℕ) : K :=
  match l[j - r]? with
  | some x => if r ≤ j then x else row j
  | none => row j

/-- `row[r] = x`. -/
def setAt (r : ℕ) (x : K) (row : ℕ → K) (j : ℕ) : K := if j = r then x else row j

/-- `np.delete(A, c, axis=1)` on one row. -/
def delCol (c : ℕ) (row : ℕ → K) (j : ℕ) : K := if j < c then row j else row (j + 1)

section
variable [Ring K]

/-! ## Interpreted constructors -/

/-- `_create_first_differences_matrix_impl`, `numba.py:41-46`. -/
def firstDiffPy (p q : ℕ) : List (ℕ → K) := (List.range (p + q)).map fun r => setSlice r [-1, 1] fun _ => 0

/-- `_create_second_differences_matrix_impl`, `numba.py:49-54`. -/
def secondDiffPy (m total : ℕ) : List (ℕ → K) :=
  (List.range m).map fun i => if i + 3 ≤ total then setSlice i [1, -2, 1] fun _ => 0 else fun _ => 0

/-- `_create_bounds_second_difference_matrix_impl`, `numba.py:159-179`. -/
def boundsSecondDiffPy (p q : ℕ) : List (ℕ → K) :=
  (List.range (if 3 ≤ p then p - 2 else 0)).map (fun r => setSlice r [1, -2, 1] fun _ => 0) ++
    (List.range (if 3 ≤ q then q - 2 else 0)).map fun r => setSlice (p + r) [1, -2, 1] fun _ => 0

/-- `_create_monotonicity_matrix_impl`, `numba.py:182-196`, for `p >= 1` (row `p - 1` is written after the loop; rows `p` to
`p + q - 1` exist only if `q > 0`). -/
def monotonicityPy (p q : ℕ) : List (ℕ → K) :=
  (List.range (p + q)).map fun r =>
    if r + 1 < p then setSlice r [1, -1] fun _ => 0
    else if r + 1 = p then setAt r 1 fun _ => 0
    else if r = p then setAt r (-1) fun _ => 0
    else setSlice (r - 1) [1, -1] fun _ => 0

/-! ## Compiled constructors -/

/-- `_create_first_differences_matrix_impl`, compiled, `numba.py:212-218`. -/
def firstDiffNb (p q : ℕ) : List (ℕ → K) := (List.range (p + q)).map fun r => setAt (r + 1) 1 (setAt r (-1) fun _ => 0)

/-- Three consecutive assignments `1.0, -2.0, 1.0`. -/
def set121 (i : ℕ) : ℕ → K := setAt (i + 2) 1 (setAt (i + 1) (-2) (setAt i 1 fun _ => 0))

/-- `_create_second_differences_matrix_impl`, compiled, `numba.py:221-228`. -/
def secondDiffNb (m total : ℕ) : List (ℕ → K) :=
  (List.range m).map fun i => if i + 3 ≤ total then set121 i else fun _ => 0

/-- `_create_bounds_second_difference_matrix_impl`, compiled, `numba.py:401-426`. -/
def boundsSecondDiffNb (p q : ℕ) : List (ℕ → K) :=
  (List.range (if 3 ≤ p then p - 2 else 0)).map set121 ++
    (List.range (if 3 ≤ q then q - 2 else 0)).map fun r => set121 (p + r)

/-- `_create_monotonicity_matrix_impl`, compiled, `numba.py:429-445`. -/
def monotonicityNb (p q : ℕ) : List (ℕ → K) :=
  (List.range (p + q)).map fun r =>
    if r + 1 < p then setAt (r + 1) (-1) (setAt r 1 fun _ => 0)
    else if r + 1 = p then setAt r 1 fun _ => 0
    else if r = p then setAt r (-1) fun _ => 0
    else setAt r (-1) (setAt (r - 1) 1 fun _ => 0)

/-! ## Constraint matrices -/

/-- `np.vstack([A, -A])`. -/
def pm (A : List (ℕ → K)) : List (ℕ → K) := A ++ A.map fun a j => -a j

/-- `_create_sd_constraint_matrix` with `drop_zero_period=True`, `post_period_moments_only=False`, `sd.py:369-394`. -/
def sdMatrix (p q : ℕ) : List (ℕ → K) := pm ((secondDiffPy (p + q - 1) (p + q + 1)).map (delCol p))

/-- `np.any(A[i, num_pre:] != 0)`, `sd.py:387`, `numba.py:36`, `bounds.py:275`. -/
def usesPost [DecidableEq K] (p q : ℕ) (a : ℕ → K) : Bool := decide (∃ j ∈ range q, a (p + j) ≠ 0)

/-- The same with `post_period_moments_only=True`, `sd.py:381-390`. -/
def sdMatrixPost [DecidableEq K] (p q : ℕ) : List (ℕ → K) :=
  let A := (secondDiffPy (p + q - 1) (p + q + 1)).map (delCol p)
  pm (if 1 < q then A.filter (usesPost p q) else A)

/-- Row `v_max_diff`, `rm.py:424-428`, and its second-difference analogue `numba.py:134-139`. -/
def signed (maxPositive : Bool) (v : ℕ → K) (j : ℕ) : K := if maxPositive then v j else -v j

/-- Stack of the constraints `|a r| <= ub r`: `vstack([a - ub, -a - ub])`, `rm.py:440`, `numba.py:145-147`. -/
def absStack (a ub : List (ℕ → K)) : List (ℕ → K) :=
  List.zipWith (fun x u j => x j - u j) a ub ++ List.zipWith (fun x u j => -x j - u j) a ub

/-- Bounds `1 * v` for the first `m` rows, `m_bar * v` for the next `q`, `rm.py:431-436`, `numba.py:141-143`. -/
def ubRows (m q : ℕ) (mbar : K) (v : ℕ → K) : List (ℕ → K) :=
  List.replicate m v ++ List.replicate q fun j => mbar * v j

variable [LinearOrder K]

/-- Removal of the numerically zero rows by their largest entry, `rm.py:442-443`. -/
def dropZeroRows (n : ℕ) (tol : K) (A : List (ℕ → K)) : List (ℕ → K) :=
  A.filter fun a => decide (∃ j ∈ range n, tol < |a j|)

/-- Removal by the sum of squares, `numba.py:149-151`. -/
def dropZeroRowsSq (n : ℕ) (tol : K) (A : List (ℕ → K)) : List (ℕ → K) :=
  A.filter fun a => decide (tol < ∑ j ∈ range n, a j ^ 2)

/-- `_create_relative_magnitudes_constraint_matrix` for an accepted `s` (`-(p-1) <= s <= 0`), `rm.py:418-448`. -/
def rmMatrix (tol : K) (p q : ℕ) (mbar : K) (s : ℤ) (maxPositive : Bool) : List (ℕ → K) :=
  let v := signed maxPositive (setSlice ((p : ℤ) + s).toNat [-1, 1] fun _ => 0)
  (dropZeroRows (p + q + 1) tol (absStack (firstDiffPy p q) (ubRows p q mbar v))).map (delCol p)

/-- `_create_sdrm_constraint_matrix_impl`, `numba.py:125-156`, for `p >= 2`, `-(p-2) <= s <= 0`. -/
def sdrmMatrix (tol : K) (p q : ℕ) (mbar : K) (s : ℤ) (maxPositive : Bool) : List (ℕ → K) :=
  let a := (List.range (p + q - 1)).map fun r => setSlice r [1, -2, 1] fun _ => 0
  let v := signed maxPositive (setSlice ((p : ℤ) + s - 2).toNat [1, -2, 1] fun _ => 0)
  (dropZeroRowsSq (p + q + 1) tol (absStack a (ubRows (p - 1) q mbar v))).map (delCol p)

/-- `create_monotonicity_constraint_matrix`, `bounds.py:268-283`; `none` is the `ValueError`. -/
def monotonicityConstraint (p q : ℕ) (direction : String) (postOnly : Bool) : Option (List (ℕ → K)) :=
  let A := (monotonicityPy p q).filter fun a => decide (∃ j ∈ range (p + q), a j ≠ 0)
  let A := if postOnly then A.filter (usesPost p q) else A
  if direction = "decreasing" then some (A.map fun a j => -a j)
  else if direction = "increasing" then some A
  else none

/-- `create_sign_constraint_matrix`, `bounds.py:331-341`; `none` is the `ValueError`. -/
def signConstraint (p q : ℕ) (direction : String) : Option (List (ℕ → K)) :=
  let A := (List.range q).map fun k => setAt (p + k) (-1 : K) fun _ => 0
  if direction = "negative" then some (A.map fun a j => -a j)
  else if direction = "positive" then some A
  else none

/-- `A @ v <= d` with a constant right-hand side. -/
def Sat (n : ℕ) (A : List (ℕ → K)) (d : K) (v : ℕ → K) : Prop := ∀ a ∈ A, dotN n a v ≤ d

/-- Values of `s` searched by `compute_identified_set_rm` / `compute_conditional_cs_rm`, `rm.py:190-191,317-318`. -/
def sRangeRM (p : ℕ) : List ℤ := (List.range (p - 1)).map fun (k : ℕ) => -((p : ℤ) - 1) + k

/-- Values of `s` searched by the variants with sign or monotonicity restrictions, `rmb.py:156-157,269-270`,
`rmm.py:155-156,270-271`. -/
def sRangeRMB (p : ℕ) : List ℤ := (List.range p).map fun (k : ℕ) => -((p : ℤ) - 1) + k

/-- Values of `s` searched by `sdrm.py:162-163,286-287`. -/
def sRangeSDRM (p : ℕ) : List ℤ := (List.range (p - 1)).map fun (k : ℕ) => -((p : ℤ) - 2) + k

/-! ## Identified sets -/

/-- Feasible set of the linear programs: `A v <= d`, `v_pre = beta_pre`, `sd.py:285-311`, `rm.py:512-557`. -/
def feasible (p q : ℕ) (A : List (ℕ → K)) (d : K) (beta : ℕ → K) : Set (ℕ → K) :=
  {v | Sat (p + q) A d v ∧ ∀ j < p, v j = beta j}

/-- `l' x_post`. -/
def target (p q : ℕ) (l v : ℕ → K) : K := ∑ k ∈ range q, l k * v (p + k)

/-- Bounds from the two solver results (`none` = no success), `sd.py:313-323`, `rm.py:559-566`: `rmin` is the minimum of
`l' delta_post`, `rmax` the minimum of `- l' delta_post`. -/
def bounds (observed : K) (rmax rmin : Option K) : K × K :=
  match rmax, rmin with
  | some a, some b => (observed + a, observed - b)
  | _, _ => (observed, observed)

/-- Contract of `opt.linprog` for the minimum of `f` over `S`: on success the minimum is attained; otherwise the program is
infeasible or unbounded. -/
def LpMin (S : Set (ℕ → K)) (f : (ℕ → K) → K) : Option K → Prop
  | some m => IsLeast (f '' S) m
  | none => S = ∅ ∨ ¬ BddBelow (f '' S)

/-- `min(b.id_lb ...)`, `max(b.id_ub ...)` over a non-empty list, `rm.py:347-348`, `sdrm.py:303-304`. -/
def hull : List (K × K) → Option (K × K)
  | [] => none
  | b :: bs => some (bs.foldl (fun a c => (min a.1 c.1, max a.2 c.2)) b)

/-- The loop over reference differences and signs of `compute_identified_set_rm` / `_sdrm` / `_rmb` ..., `rm.py:320-348`,
`sdrm.py:289-306`: `rmax s b` and `rmin s b` are the solver results for `(s, b)`. -/
def unionSet (observed : K) (ss : List ℤ) (rmax rmin : ℤ → Bool → Option K) : Option (K × K) :=
  hull (ss.flatMap fun s =>
    [bounds observed (rmax s true) (rmin s true), bounds observed (rmax s false) (rmin s false)])

/-- Feasible set of the variants with a sign or monotonicity restriction: the rows `B v <= 0` are stacked below,
`sdb.py:339-430`, `sdm.py:334-380`. -/
def feasibleWith (p q : ℕ) (A : List (ℕ → K)) (d : K) (B : List (ℕ → K)) (beta : ℕ → K) : Set (ℕ → K) :=
  {v | (Sat (p + q) A d v ∧ Sat (p + q) B 0 v) ∧ ∀ j < p, v j = beta j}

end

end Verif.Honest
