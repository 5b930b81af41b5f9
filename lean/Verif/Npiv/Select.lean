import Mathlib.Data.ENNReal.Operations
import Mathlib.Data.ENNReal.Basic
import Mathlib.Analysis.SpecialFunctions.Log.Basic
import Mathlib.Analysis.SpecialFunctions.Pow.Real
import Mathlib.Analysis.Complex.ExponentialBounds
import Mathlib.Data.List.Sort
import Mathlib.Tactic.Linarith
import Mathlib.Tactic.Positivity
import Verif.Npiv.Model

/-!
# Data-driven choice of the sieve dimension (`didcont/npiv/lepski.py`, `selection.py`, `npiv.py`)

Two steps are modelled: `npiv_jhat_max`, which bounds the candidate grid, and `npiv_j`, the Lepski
comparison of the candidates.  The regression fits, singular values and random draws are inputs; what
is modelled is how the code turns them into a choice.  Statistics are nonnegative, possibly infinite
numbers; NaN statistics are not modelled.
-/

set_option linter.unusedSectionVars false
set_option linter.unusedSimpArgs false

namespace Verif.Npiv.Sel

open scoped ENNReal

/-! ## The candidate grid -/

/-- The sieve measure of ill-posedness (lepski.py:426-436): the smallest singular value, replaced by
`max(1, (0.1 log n)^4)` when it is not positive or when the computation fails (`none`). -/
noncomputable def sHat (n : ℕ) (raw : Option ℝ) : ℝ :=
  match raw with
  | some s => if 0 < s then s else max 1 ((0.1 * Real.log n) ^ 4)
  | none => max 1 ((0.1 * Real.log n) ^ 4)

/-- The quantity compared with `10 √n` for a candidate of dimension `J` (lepski.py:373). -/
noncomputable def sieveTest (n J : ℕ) (s : ℝ) : ℝ :=
  J * Real.sqrt (Real.log J) * max ((0.1 * Real.log n) ^ 4) (1 / s)

/-- The array `test_val` (lepski.py:339-375): from the third entry on, a new value is computed only if
the entry two places before does not exceed the limit; otherwise the previous entry is repeated. -/
noncomputable def testVal (f : ℕ → ℝ) (T : ℝ) : ℕ → ℝ
  | 0 => f 0
  | 1 => f 1
  | i + 2 => if testVal f T i ≤ T then f (i + 2) else testVal f T (i + 1)

open Classical in
/-- The number of candidates kept, `L_hat_max` (lepski.py:377-379): one more than the first place where
`test_val` crosses the limit, and `L_max` if there is no such place. -/
noncomputable def gridLen (f : ℕ → ℝ) (T : ℝ) (L : ℕ) : ℕ :=
  (((List.range L).find? (fun i => decide (testVal f T i ≤ T ∧ T < testVal f T (i + 1)))).map (· + 1)).getD L

/-- The numbers of segments of the candidates (lepski.py:336, 381). -/
def jSet (g : ℕ) : List ℕ := (List.range g).map (fun i => 2 ^ i)

/-- The numbers of segments of the instruments (lepski.py:337, 382). -/
def kSet (smooth g : ℕ) : List ℕ := (List.range g).map (fun i => 2 ^ (i + smooth))

/-- `L_max` (lepski.py:335). -/
noncomputable def lMax (n p : ℕ) : ℕ := max ⌊Real.log n / Real.log (2 * p)⌋₊ 3

/-- The candidates of `npiv_jhat_max` (lepski.py:327-397) given the dimension of each candidate and the
smallest singular value of each candidate (`none`: the computation failed). -/
noncomputable def candidates (n p smooth : ℕ) (dim : ℕ → ℕ) (raw : ℕ → Option ℝ) : List ℕ × List ℕ :=
  let g := gridLen (fun i => sieveTest n (dim i) (sHat n (raw i))) (10 * Real.sqrt n) (lMax n p)
  (jSet g, kSet smooth g)

/-! ## The Lepski comparison -/

/-- `np.quantile(x, q, method="lower")` (didcont/utils.py:237-243); `none` for an empty array. -/
noncomputable def quantLower {α : Type} [LinearOrder α] (l : List α) (q : ℝ) : Option α :=
  (l.insertionSort (· ≤ ·))[⌊q * ((l.length : ℝ) - 1)⌋₊]?

/-- The input of `npiv_j`: candidates, and for every pair of positions the outcome of the comparison:
the statistic and its bootstrap draws, or `none` when a fit fails (lepski.py:157-217). -/
structure Lep where
  S : List ℕ
  K : List ℕ
  cmp : ℕ → ℕ → Option (ℝ≥0∞ × (ℕ → ℝ≥0∞))
  B : ℕ
  q : ℝ

/-- The statistic of a pair; infinite when the comparison failed (lepski.py:207, 216). -/
noncomputable def Lep.z (P : Lep) (i j : ℕ) : ℝ≥0∞ := match P.cmp i j with | some r => r.1 | none => ⊤

/-- The bootstrap statistic of a pair (lepski.py:211, 217). -/
noncomputable def Lep.zb (P : Lep) (b i j : ℕ) : ℝ≥0∞ := match P.cmp i j with | some r => r.2 b | none => ⊤

/-- The pairs of positions compared (lepski.py:140-143). -/
def pairs (n : ℕ) : List (ℕ × ℕ) :=
  (List.range n).flatMap (fun i => ((List.range n).filter (fun j => decide (i < j))).map (fun j => (i, j)))

/-- The critical value (lepski.py:219-220): the quantile of the row maxima of the bootstrap statistics.
`none`: `np.max` along an axis of length zero raises when there is no pair. -/
noncomputable def Lep.theta (P : Lep) : Option ℝ≥0∞ :=
  if pairs P.S.length = [] then none
  else quantLower ((List.range P.B).map
    (fun b => ((pairs P.S.length).map (fun p => P.zb b p.1 p.2)).foldr max 0)) P.q

open Classical in
/-- The position chosen by `_select_optimal_dimension` (lepski.py:524-544). -/
noncomputable def Lep.selIdx (P : Lep) (θ : ℝ≥0∞) : ℕ :=
  ((List.range (P.S.length - 1)).find? (fun i =>
    (List.range P.S.length).all (fun j => decide (i < j → P.z i j ≤ 11 / 10 * θ)))).getD (P.S.length - 1)

/-- `npiv_j` (lepski.py:219-242): segments of the sieve, segments of the instruments, critical value.
`none`: an exception is raised. -/
noncomputable def Lep.run (P : Lep) : Option (ℕ × ℕ × ℝ≥0∞) :=
  P.theta.bind (fun θ =>
    let jSeg := P.S.getD (P.selIdx θ) 0
    let jSegN := if 1 < P.S.length then P.S.getD (P.S.length - 2) 0 else jSeg
    let jx := min jSeg jSegN
    (P.K[P.S.idxOf jx]?).map (fun k => (jx, k, θ)))

/-- The critical value of the data-driven band (cck_ucb.py:265-269). -/
noncomputable def cckCv (zStar : ℝ≥0∞) (jTilde : ℕ) (θ : ℝ≥0∞) : ℝ≥0∞ :=
  zStar + ENNReal.ofReal (max 0 (Real.log (Real.log jTilde))) * θ

/-- The segments `npiv` ends up using when none are given (npiv.py:252-282): those of the selection, or
the default when the selection raises. -/
noncomputable def npivSegments (P : Lep) (n degree p : ℕ) : ℕ × Option ℕ :=
  match P.run with
  | some r => (r.1, some r.2.1)
  | none => (max 3 (min ⌈(n : ℝ) ^ ((1 : ℝ) / (2 * degree + p))⌉₊ 10), none)

/-! ## Bounds and instruments -/

/-- Left end of the knots in the estimator (estimators.py:241, gsl_bspline.py:108-109). -/
noncomputable def estLow (b : Option ℝ) (lo : ℝ) : ℝ := match b with | some v => v | none => lo

open Classical in
/-- Left end of the knots in the selection and band code (lepski.py:414, 451, 470; cck_ucb.py:190):
`if x_min` also discards a bound equal to zero. -/
noncomputable def selLow (b : Option ℝ) (lo : ℝ) : ℝ :=
  match b with | some v => if v = 0 then lo else v | none => lo

/-- Degree and segments of the instrument sieve of a fit with given segments (estimators.py:371-389). -/
def fitInstruments (regression dataDriven : Bool) (jd j kd k : ℕ) : ℕ × ℕ :=
  if regression then (jd, if dataDriven then k else j) else (kd, k)

/-- Degree and segments of the instruments behind the variance of the comparison
(lepski.py:154, 195-197, 444). -/
def cmpInstruments (kd k : ℕ) : ℕ × ℕ := (kd, k)

end Verif.Npiv.Sel
