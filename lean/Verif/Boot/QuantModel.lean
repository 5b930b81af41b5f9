import Mathlib.Algebra.BigOperators.Field
import Mathlib.Algebra.BigOperators.Ring.Finset
import Mathlib.Algebra.Order.Floor.Ring
import Mathlib.Algebra.Order.Floor.Semiring
import Mathlib.Data.Finset.Fold
import Mathlib.Data.Fintype.BigOperators
import Mathlib.Data.List.Sort

/-!
# Bootstrap standard errors, critical values and the Wald pre-test: executable model

Models the part of `did/mboot.py` and `didtriple/bootstrap/mboot_ddd.py` after the draws, the rules by which the
estimators turn the result into reported critical values, and the pre-test of `did/att_gt.py`.  Arithmetic is exact;
a missing value (NaN or infinite) is `none`.
-/

namespace Verif.Boot

section
variable {K : Type*} [Field K] [LinearOrder K]

/-- `np.percentile(xs, 100 * q)` with numpy's default linear interpolation: between the order statistics around the
virtual index `(n - 1) * q`.  Used at `mboot.py:105-106,118`, `mboot_ddd.py:93-94,105`, `compute_agg_ddd.py:548-549`. -/
def percentile [IsStrictOrderedRing K] [FloorRing K] (q : K) (xs : List K) : K :=
  let s := xs.insertionSort (· ≤ ·)
  let h := ((xs.length - 1 : ℕ) : K) * q
  let lo := ⌊h⌋₊
  let a := s.getD lo 0
  let b := s.getD (min (lo + 1) (xs.length - 1)) 0
  a + (h - (lo : K)) * (b - a)

/-- The normal interquartile range `1.3489795`, `mboot.py:107`, `mboot_ddd.py:95`. -/
def normIqr : K := 13489795 / 10000000

/-- `(q75 - q25) / 1.3489795`, `mboot.py:105-107`. -/
def iqrSigma [IsStrictOrderedRing K] [FloorRing K] {B : ℕ} (b : Fin B → K) : K :=
  (percentile (3 / 4) (List.ofFn b) - percentile (1 / 4) (List.ofFn b)) / normIqr

/-- One column of `bres = sqrt(n) * multiplier_bootstrap(...)`, `mboot.py:81`: `r` stands for the square root of the
number of units (clusters); `mult b i` is the multiplier of unit `i` in draw `b`. -/
def drawsOf {n B : ℕ} (r : K) (mult : Fin B → Fin n → K) (psi : Fin n → K) (b : Fin B) : K :=
  r * ((∑ i, psi i * mult b i) / (n : K))

/-- `col_sums_sq > sqrt(eps) * 10`, `mboot.py:94-95`, `mboot_ddd.py:85-86`. -/
def nondegenerate {B : ℕ} (tol : K) (b : Fin B → K) : Bool := decide (tol < ∑ i, b i ^ 2)

/-- Entry of `se_full`, `mboot.py:103-108`. -/
def mbootSe [IsStrictOrderedRing K] [FloorRing K] {B : ℕ} (tol r : K) (b : Fin B → K) : Option K :=
  if nondegenerate tol b then some (iqrSigma b / r) else none

/-- Entry of `se_full` in the triple-difference bootstrap, `mboot_ddd.py:92-97`: a small `b_sigma` becomes NaN. -/
def mbootDddSe [IsStrictOrderedRing K] [FloorRing K] {B : ℕ} (tol r : K) (b : Fin B → K) : Option K :=
  if nondegenerate tol b then (if iqrSigma b ≤ tol then none else some (iqrSigma b / r)) else none

/-- The estimators blank small standard errors, `att_gt.py:442`, `compute_aggte.py:959`, `compute_agg_ddd.py:527`. -/
def reportSe (tol : K) (se : Option K) : Option K := se.bind fun s => if s ≤ tol then none else some s

variable {κ : Type*} [Fintype κ]

/-- `bres_clean`: the columns that are kept, `mboot.py:97`. -/
def cleanCols {B : ℕ} (tol : K) (bres : κ → Fin B → K) : Finset κ :=
  Finset.univ.filter fun j => nondegenerate tol (bres j) = true

/-- `np.max(np.abs(bres_clean / se_bootstrap), axis=1)` for one draw, `mboot.py:114`.  All entries are nonnegative, so
the maximum is folded from zero.  Division by a zero spread is infinite or NaN in every row, which makes the whole row
non-finite: `bad` says which spreads are unusable. -/
def maxT {B : ℕ} (cols : Finset κ) (sigma : κ → K) (bad : K → Bool) (bres : κ → Fin B → K) (b : Fin B) : Option K :=
  if ∃ j ∈ cols, bad (sigma j) = true then none
  else some (cols.fold max 0 fun j => |bres j b / sigma j|)

/-- `crit_val`, `mboot.py:110-118` and `mboot_ddd.py:99-105`: the `1 - alpha` percentile of the finite row maxima. -/
def critWith [IsStrictOrderedRing K] [FloorRing K] {B : ℕ} (bad : K → Bool) (tol alpha : K) (bres : κ → Fin B → K) :
    Option K :=
  let cols := cleanCols tol bres
  if cols.card = 0 then none else
  let rows := (List.ofFn fun b : Fin B => maxT cols (fun j => iqrSigma (bres j)) bad bres b).filterMap id
  if rows = [] then none else some (percentile (1 - alpha) rows)

/-- `mboot`, `mboot.py:110-118`: a zero spread is unusable. -/
def mbootCrit [IsStrictOrderedRing K] [FloorRing K] {B : ℕ} (tol alpha : K) (bres : κ → Fin B → K) : Option K :=
  critWith (fun s => decide (s = 0)) tol alpha bres

/-- `mboot_ddd`, `mboot_ddd.py:96-105`: a spread of at most `tol` is NaN. -/
def mbootDddCrit [IsStrictOrderedRing K] [FloorRing K] {B : ℕ} (tol alpha : K) (bres : κ → Fin B → K) : Option K :=
  critWith (fun s => decide (s ≤ tol)) tol alpha bres

/-! ## Reported critical values -/

/-- `att_gt.py:488-491`: the bootstrap value whenever bands are requested, also when it is NaN. -/
def critAttGt (boot cband : Bool) (z : K) (cv : Option K) : Option K := if boot && cband then cv else some z

/-- `_batched_se`, `compute_aggte.py:963-989`: the bootstrap value if it is finite. -/
def critAggte (uniform : Bool) (z : K) (cv : Option K) : K := if uniform then cv.getD z else z

/-- `ddd_mp.py:310,320`: the bootstrap value if it is finite. -/
def critDddMp (boot cband : Bool) (z : K) (cv : Option K) : K := if boot && cband then cv.getD z else z

/-- `_batched_bootstrap`, `compute_agg_ddd.py:529-539`: the bootstrap value if it is finite and not below `z`. -/
def critAggDdd (cband : Bool) (z : K) (cv : Option K) : K :=
  if cband then (match cv with | none => z | some c => if c < z then z else c) else z

/-- `_get_crit_val`, `compute_agg_ddd.py:563-581`. -/
def critGet (z : K) (cv : Option K) : K := match cv with | none => z | some c => if c < z then z else c

/-! ## Overall standard error from the same draws -/

/-- `_overall_se_from_bres`, `compute_agg_ddd.py:544-560`. -/
def overallSe [IsStrictOrderedRing K] [FloorRing K] {B : ℕ} (tol r : K) (mask : Finset κ) (w : κ → K)
    (bres : κ → Fin B → K) : Option K :=
  let o := fun b => ∑ j ∈ mask, bres j b * w j
  if iqrSigma o ≤ tol then none else if iqrSigma o / r ≤ tol then none else some (iqrSigma o / r)

/-- Standard errors of `att_gt_ddd` with the bootstrap, `ddd_mp.py:303-308`: where the cell came with its own (GMM)
standard error, that one replaces the bootstrap value. -/
def dddMpSe (tol : K) (cellSe bootSe : Option K) : Option K :=
  reportSe tol (match cellSe with | some s => some s | none => bootSe)

end

/-! ## Wald pre-test -/

section
variable {K : Type*} [Field K]

/-- `variance_matrix = inf' inf / n_units`, `att_gt.py:392`; `n` rows of the influence matrix. -/
def varMat {n : ℕ} {κ : Type*} (psi : Fin n → κ → K) (i j : κ) : K := (∑ u, psi u i * psi u j) / (n : K)

/-- `pre_treatment_indices`, `att_gt.py:445-448`: cells before treatment whose standard error is not missing. -/
def preCells (cells : List (ℤ × ℤ × Bool)) : List ℕ :=
  (List.range cells.length).filter fun k =>
    match cells[k]? with
    | some (g, t, seMissing) => decide (g > t) && !seMissing
    | none => false

/-- The Wald statistic, `att_gt.py:477`, where `x` is what `np.linalg.solve(pre_variance, pre_att)` returns. -/
def waldStat {m : ℕ} (n : ℕ) (a x : Fin m → K) : K := (n : K) * ∑ i, a i * x i

/-- `x` solves the linear system of `att_gt.py:477`. -/
def WaldSolve {n m : ℕ} (psi : Fin n → Fin m → K) (a x : Fin m → K) : Prop :=
  ∀ i, ∑ j, varMat psi i j * x j = a i

end

end Verif.Boot
