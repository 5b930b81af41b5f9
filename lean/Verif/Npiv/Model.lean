import Mathlib.Algebra.BigOperators.Group.List.Basic
import Mathlib.Algebra.BigOperators.Group.Finset.Basic
import Mathlib.Algebra.Order.Field.Rat
import Mathlib.Data.List.Sort
import Mathlib.Data.Nat.Factorial.Basic

/-!
# Model of the sieve bases of `moderndid/didcont/npiv`

`prodspline` turns each continuous regressor into the values of a univariate B-spline basis and
combines them (additive, tensor, glp).  A row of a univariate basis is a list of numbers; what is
modelled is which columns exist and what they are products of.  The values of the univariate
B-splines themselves (scipy) are not modelled: the theorems quantify over them.
Discrete regressors (`z`) are not modelled.
-/

set_option linter.unusedSectionVars false

namespace Verif.Npiv

/-- The three ways of combining univariate bases (utils.py:147-148, prodspline.py:142). -/
inductive Kind where
  | additive
  | tensor
  | glp
  deriving DecidableEq, Repr

/-- Keep the regressors with positive degree (didcont/utils.py:159-161, prodspline.py:147-148). -/
def active (K : List (ℕ × ℕ)) : List (ℕ × ℕ) := K.filter (fun p => decide (0 < p.1))

/-! ## Number of columns actually built -/

/-- Columns of `gsl_bs` (gsl_bspline.py:126, 138-139). -/
def gslCols (degree nbreak : ℕ) (intercept : Bool) : ℕ :=
  if intercept then nbreak + degree - 1
  else if nbreak + degree - 1 > 1 then nbreak + degree - 2 else nbreak + degree - 1

/-- Columns of the univariate basis of one regressor in `prodspline` (prodspline.py:142,
147-183): `nbreak = K[i, 1] + 2`, intercept kept only for the tensor basis. -/
def uniCols (k : Kind) (p : ℕ × ℕ) : ℕ := gslCols p.1 (p.2 + 2) (decide (k = .tensor))

/-- `itertools.combinations(l, k)` in its order. -/
def combos {α : Type} : ℕ → List α → List (List α)
  | 0, _ => [[]]
  | _ + 1, [] => []
  | k + 1, a :: t => (combos k t).map (a :: ·) ++ combos (k + 1) t

section rows
variable {R : Type} [CommRing R]

/-- `np.kron` of two rows. -/
def kron (a b : List R) : List R := a.flatMap (fun u => b.map (fun v => u * v))

/-- One row of `tensor_prod_model_matrix` (prodspline.py:294-301). -/
def tensorRow : List (List R) → List R
  | [] => []
  | r :: rs => rs.foldl kron r

/-- One row of `_compute_basis_interaction` (prodspline.py:374-405): all products of one column of
each basis, in the order of `itertools.product`. -/
def interRow : List (List R) → List R
  | [] => [1]
  | r :: rs => r.flatMap (fun a => (interRow rs).map (fun b => a * b))

/-- One row of `glp_model_matrix` (prodspline.py:353-371): the bases themselves, then the
interactions of every order, each over `itertools.combinations`. -/
def glpRow (rs : List (List R)) : List R :=
  rs.flatten ++ (List.range (rs.length - 1)).flatMap (fun i => (combos (i + 2) rs).flatMap interRow)

/-- One row of the matrix `prodspline` builds from the rows of the active univariate bases
(prodspline.py:199-206, 231-232): with one basis that basis; with none a column of ones. -/
def combineRow (k : Kind) (rs : List (List R)) : List R :=
  match rs with
  | [] => [1]
  | [r] => r
  | _ => match k with
    | .additive => rs.flatten
    | .tensor => tensorRow rs
    | .glp => glpRow rs

/-- The positions `prodspline` keeps when differentiating a glp basis (prodspline.py:207-230): the
mask matrix is the glp matrix of zero rows, with NaN in the row of the differentiated variable; a
product is NaN exactly when a factor is. -/
def glpMask (flags : List (ℕ × Bool)) : List Bool :=
  flags.flatMap (fun f => List.replicate f.1 f.2) ++
  (List.range (flags.length - 1)).flatMap (fun i => (combos (i + 2) flags).flatMap
    (fun c => List.replicate (c.map (·.1)).prod (c.any (·.2))))

/-- One row of the derivative matrix (prodspline.py:161-171, 199-232): the differentiated variable
is the one with flag `true`; its univariate row is given as derivatives (second component), the
other rows as levels. For glp the columns outside the mask are set to zero if the differentiated
variable is active; for the other kinds nothing is zeroed. -/
def derivRow (k : Kind) (rs : List (Bool × List R × List R)) : List R :=
  let rows := rs.map (fun r => if r.1 then r.2.2 else r.2.1)
  match rs with
  | [] => [1]
  | [_] => combineRow k rows
  | _ => match k with
    | .glp =>
      if rs.any (·.1) then List.zipWith (fun keep v => if keep then v else 0)
        (glpMask (rs.map (fun r => ((if r.1 then r.2.2 else r.2.1).length, r.1)))) (glpRow rows)
      else glpRow rows
    | _ => combineRow k rows

end rows

/-- Columns of the matrix returned by `prodspline` (prodspline.py:144-237). -/
def prodCols (k : Kind) (K : List (ℕ × ℕ)) : ℕ :=
  (combineRow (R := ℚ) k ((active K).map (fun p => List.replicate (uniCols k p) 0))).length

/-! ## `basis_dimension` -/

/-- The array update of `_compute_glp_dimension_step` (didcont/utils.py:213-234) with `d2 ≠ 1`;
`nd` is the array, 0-based. -/
def glpNd (d1 d2 : ℕ) (nd : ℕ → ℕ) (j : ℕ) : ℕ :=
  if j < d1 - 1 then
    ((List.range (min (j + 1) (d2 - 1) + 1)).map
      (fun c => if 0 < j + 1 - c then nd (j + 1 - c - 1) else 1)).sum
  else nd (d1 - 1) + ((List.range (d2 - 1)).map (fun i => nd (d1 - d2 + 1 + i - 1))).sum

/-- The column count of `_compute_glp_dimension_step` (didcont/utils.py:203-212) with `d2 ≠ 1`. -/
def glpD12 (d1 d2 : ℕ) (nd : ℕ → ℕ) : ℕ :=
  d2 + ((List.range (d1 - d2)).map (fun i => d2 * nd i)).sum +
    ((List.range (d2 - 1)).map (fun i => (i + 2) * nd (d1 - (i + 2)))).sum + nd (d1 - 1)

/-- `_compute_glp_dimension_step` (didcont/utils.py:198-236). -/
def glpStep (d1 : ℕ) (st : ℕ × (ℕ → ℕ)) (d2 : ℕ) : ℕ × (ℕ → ℕ) :=
  if d2 = 1 then st else (glpD12 d1 d2 st.2, glpNd d1 d2 st.2)

/-- Sort a list of sizes in decreasing order (didcont/utils.py:176). -/
def sortDesc (l : List ℕ) : List ℕ := l.insertionSort (· ≥ ·)

/-- The glp branch of `basis_dimension` on the decreasing list of sizes (didcont/utils.py:177-193):
start from the largest, fold the others in. -/
def glpDim : List ℕ → ℕ
  | [] => 0
  | d1 :: ds =>
    (ds.foldl (glpStep d1) (d1, fun j => if j = d1 - 1 then 0 else 1)).1 + ds.length

/-- Sizes used by the glp branch (didcont/utils.py:173-175). -/
def glpSizes (K : List (ℕ × ℕ)) : List ℕ :=
  ((active K).map (fun p => p.1 + p.2 - 1)).filter (fun d => decide (0 < d))

/-- `basis_dimension` (didcont/utils.py:122-195), for degree/segment pairs with at least one
segment. -/
def basisDimension (k : Kind) (K : List (ℕ × ℕ)) : ℕ :=
  if active K = [] then 0
  else match k with
    | .additive => ((active K).map (fun p => p.1 + p.2 - 1)).sum
    | .tensor => ((active K).map (fun p => p.1 + p.2)).prod
    | .glp => glpDim (sortDesc (glpSizes K))

/-! ## The compiled formulas -/

/-- `_two_dimension_update`, array part (didcont/numba.py:178-192, 364-378), `d2 ≠ 1`: the inner
loop stops at `max(-1, j - d2)`, so its index never becomes negative. -/
def glpNdC (d1 d2 : ℕ) (nd : ℕ → ℕ) (j : ℕ) : ℕ :=
  if j < d1 - 1 then ((List.range (min (j + 1) d2)).map (fun c => nd (j - c))).sum
  else nd (d1 - 1) + ((List.range (d2 - 1)).map (fun i => nd (d1 - d2 + i))).sum

/-- `_two_dimension_update`, count (didcont/numba.py:167-176, 353-362). -/
def glpD12C (d1 d2 : ℕ) (nd : ℕ → ℕ) : ℕ :=
  d2 + ((List.range (d1 - d2)).map (fun i => d2 * nd i)).sum +
    ((List.range (d2 - 1)).map (fun i => (i + 1 + 1) * nd (d1 - (i + 1) - 1))).sum + nd (d1 - 1)

/-- `_two_dimension_update` (didcont/numba.py:162-194, 348-380). -/
def glpStepC (d1 : ℕ) (st : ℕ × (ℕ → ℕ)) (d2 : ℕ) : ℕ × (ℕ → ℕ) :=
  if d2 = 1 then st else (glpD12C d1 d2 st.2, glpNdC d1 d2 st.2)

/-- `_compute_glp_dimension` (didcont/numba.py:134-159, 309-345). -/
def glpDimC : List ℕ → ℕ
  | [] => 0
  | [d] => d
  | d1 :: ds =>
    (ds.foldl (glpStepC d1) (d1, fun j => if j = d1 - 1 then 0 else 1)).1 + ds.length

/-- One pass of the additive loop (didcont/numba.py:289-295). -/
def addLoop (acc : ℕ) (p : ℕ × ℕ) : ℕ := if 0 < p.1 then acc + (p.1 + p.2 - 1) else acc

/-- One pass of the tensor loop (didcont/numba.py:298-306). -/
def mulLoop (acc : ℕ × Bool) (p : ℕ × ℕ) : ℕ × Bool :=
  if 0 < p.1 then (acc.1 * (p.1 + p.2), true) else acc

/-- `compute_basis_dimension` with compiled kernels (didcont/numba.py:288-345, 496-507). -/
def basisDimensionC (k : Kind) (K : List (ℕ × ℕ)) : ℕ :=
  match k with
  | .additive => K.foldl addLoop 0
  | .tensor => if (K.foldl mulLoop (1, false)).2 then (K.foldl mulLoop (1, false)).1 else 0
  | .glp => glpDimC (sortDesc (glpSizes K))

/-! ## Evaluation outside the boundary knots -/

/-- Value of one basis function outside the boundary knots (gsl_bspline.py:245-293): `u` is the
distance from the boundary knot, `tt j` the derivative of order `deriv + j` of the basis function
there. Every term is divided by the same number, `(degree + 1 - deriv)!`. -/
def outsideValue (degree deriv : ℕ) (u : ℚ) (tt : ℕ → ℚ) : ℚ :=
  ((List.range (degree + 1 - deriv)).map
    (fun j => u ^ j * (tt j / ((degree + 1 - deriv).factorial : ℚ)))).sum

/-! ## The sieves used by the data-driven procedure -/

/-- The sieve matrix of the estimator for a number of segments (estimators.py:113, 236-244, 312-314):
`segments - 1` interior knots, plus a constant column for additive and glp bases. -/
def estimatorCols (k : Kind) (p degree segments : ℕ) : ℕ :=
  prodCols k (List.replicate p (degree, segments - 1)) + (if k = .tensor then 0 else 1)

/-- The sieve matrix behind the Lepski test statistic (lepski.py:443, 446-453, 475-478): no constant
column is added. -/
def lepskiCols (k : Kind) (p degree segments : ℕ) : ℕ :=
  prodCols k (List.replicate p (degree, segments - 1))

/-- The sieve matrix behind the uniform confidence band (cck_ucb.py:182, 185-192, 224-225):
`segments` interior knots. -/
def bandCols (k : Kind) (p degree segments : ℕ) : ℕ :=
  prodCols k (List.replicate p (degree, segments)) + (if k = .tensor then 0 else 1)

end Verif.Npiv
