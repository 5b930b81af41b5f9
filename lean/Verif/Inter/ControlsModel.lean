import Verif.Inter.VarModel
import Mathlib.LinearAlgebra.Matrix.NonsingularInverse

/-!
# Covariates of `did_multiplegt`: executable model

`moderndid/didinter/controls.py:9-371`, called from `compute_did_multiplegt.py:277-285, 397-399, 442-444`.  `J` indexes the
covariates of `xformla`.  `lin A b` stands for `np.linalg.solve(A, b)` and, for `|det A| <= 1e-16`, for `pinv(A) @ b`; the
theorems ask that it solves the system when the determinant is not 0.  Nulls among the covariates become NaN in the
regression (rows dropped) and 0 in the adjustment.
-/

set_option linter.unusedSectionVars false

namespace Verif.Inter

open Finset Matrix

variable {ι β γ J K : Type*} [Fintype ι] [DecidableEq ι] [DecidableEq β] [DecidableEq γ] [Fintype J] [DecidableEq J]
  [Field K] [LinearOrder K]

/-- The covariate columns of a frame. -/
abbrev Covs (P : Frame ι β K) (J : Type*) := J → (i : ι) → Fin (P.n i) → Option K

section
variable (P : Frame ι β K) (X : Covs P J) (lin : Matrix J J K → (J → K) → J → K) (h : ℕ) (D : P.Row → Option K)

/-- `lag_x_h`, `compute_did_multiplegt.py:280-282`. -/
def xlag (j : J) (r : P.Row) : Option K :=
  if hh : h ≤ r.2.1 then X j r.1 ⟨r.2.1 - h, lt_of_le_of_lt (Nat.sub_le _ _) r.2.2⟩ else none

/-- `x - lag_x_h`, `controls.py:70, 166-167`: the change up to the row itself, for effects and for placebos. -/
def xdiff (j : J) (r : P.Row) : Option K := sub? (xlag P X h j r) (X j r.1 r.2)

/-- `baseline_levels`: the `d_sq` of the units that never switch, `controls.py:45`. -/
def isLevel (d : K) : Bool := decide (∃ i, P.F i = ⊤ ∧ P.dsq i = d ∧ 0 < P.n i)

/-- The regression sample of a level, `controls.py:49-51`. -/
def regRows (d : K) : Finset P.Row := univ.filter fun r => P.dsq r.1 = d ∧ P.F r.1 = ⊤ ∧ D r ≠ none

/-- Rows without a missing covariate change, `controls.py:77`. -/
def validRows (d : K) : Finset P.Row := (regRows P D d).filter fun r => ∀ j, xdiff P X h j r ≠ none

/-- `XtWX`, `controls.py:92`. -/
def gramX (d : K) : Matrix J J K := fun j k =>
  ∑ r ∈ validRows P X h D d, P.w r.1 r.2 * (xdiff P X h j r).getD 0 * (xdiff P X h k r).getD 0

/-- `XtWy`, `controls.py:93`. -/
def momX (d : K) : J → K := fun j =>
  ∑ r ∈ validRows P X h D d, P.w r.1 r.2 * (xdiff P X h j r).getD 0 * (D r).getD 0

/-- Enough rows and more than one unit, `controls.py:53-61, 77-84`. -/
def enough (d : K) : Bool :=
  decide (Fintype.card J + 1 ≤ (regRows P D d).card) && decide (1 < ((regRows P D d).image Sigma.fst).card)
    && decide (Fintype.card J + 1 ≤ (validRows P X h D d).card)

/-- `theta` of a level, `controls.py:55-115`. -/
def theta (d : K) : J → K := if enough P X h D d then lin (gramX P X h D d) (momX P X h D d) else 0

/-- `apply_control_adjustment`, `controls.py:120-183`: the outcome change net of the covariates, where the unit's baseline
level has an entry. -/
def adjD (r : P.Row) : Option K :=
  if isLevel P (P.dsq r.1) then
    (D r).map fun y => y - ∑ j, theta P X lin h D (P.dsq r.1) j * (xdiff P X h j r).getD 0
  else D r

/-! ## The adjustment of the influence values -/

variable (o : Opt K)

/-- Levels with a usable regression, `controls.py:95-103, 231`; `tiny` is the `1e-16` of the determinant test. -/
def useful (tiny : K) (d : K) : Bool :=
  isLevel P d && enough P X h D d && decide (tiny < |(gramX P X h D d).det|)

/-- `weighted_diff_x_h`, `controls.py:240`. -/
def wxdiff (j : J) (r : P.Row) : K := (xdiff P X h j r).getD 0 * P.w r.1 r.2

/-- `m_sum` of a unit, `controls.py:242-260`; `E` is the adjusted change. -/
def mSum (E : P.Row → Option K) (j : J) (d : K) (i : ι) : K :=
  ∑ k : Fin (P.n i), ((contrastD P o h E ⟨i, k⟩).map fun a =>
    (if P.dsq i = d then 1 else 0) * scaleGN P o h E * a *
      (if (h : ℤ) + 1 ≤ P.t i k ∧ P.t i k ≤ (univ.image (P.t i)).max.unbotD 0 then 1 else 0) *
      wxdiff P X h j ⟨i, k⟩).getD 0

/-- `in_sum`, `controls.py:262-283`. -/
def inSum (j : J) (d : K) (r : P.Row) : K :=
  if P.F r.1 = ⊤ ∧ P.dsq r.1 = d ∧ 2 ≤ P.time r ∧ (P.time r : WithTop ℤ) < P.F r.1 then
    ∑ s ∈ peers P r, wxdiff P X h j s else 0

/-- `in_brackets` of a row, `controls.py:336-356`; `inv` is `inv_denom`. -/
def inBrackets (inv : K → Matrix J J K) (th : K → J → K) (j : J) (d : K) (r : P.Row) : K :=
  (∑ k, if P.dsq r.1 = d ∧ P.F r.1 ≠ ⊤ then inv d j k * inSum P X h k d r else 0) - th d j

/-- `part2` of a unit, `controls.py:319-369`, over the useful levels. -/
def part2 (E : P.Row → Option K) (levels : Finset K) (inv : K → Matrix J J K) (th : K → J → K) (i : ι) : K :=
  ∑ k : Fin (P.n i), ∑ d ∈ levels, ∑ j,
    (∑ i', mSum P X h o E j d i') / Fintype.card ι * inBrackets P X h inv th j d ⟨i, k⟩

/-- The unit's influence value with covariates, `compute_did_multiplegt.py:440-446`. -/
def unitVarX (v : VOpt ι γ K) (E : P.Row → Option K) (levels : Finset K) (inv : K → Matrix J J K) (th : K → J → K)
    (pl : Bool) (i : ι) : K :=
  unitVar P o h E v pl i - part2 P X h o E levels inv th i

end

end Verif.Inter
