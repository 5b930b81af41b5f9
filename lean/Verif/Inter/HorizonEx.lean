import Verif.Inter.HorizonProps

/-! # Horizon estimator: concrete panels, and the calendar gap (C57, C58) -/

set_option linter.unusedSectionVars false
set_option linter.unusedSimpArgs false

namespace Verif.Inter

open Finset

/-- Four units over periods 1..4: unit 0 switches at 2, unit 1 at 3, units 2 and 3 never; all share one baseline. -/
def exB : Balanced (Fin 4) ℕ ℚ where
  t0 := 1
  T := 4
  Y := fun i t => if i = 0 then t * t + 3 else if i = 1 then 2 * t * t else if i = 2 then t else 5
  F := ![((2 : ℤ) : WithTop ℤ), ((3 : ℤ) : WithTop ℤ), ⊤, ⊤]
  cell := fun _ => 0
  S := ![1, 1, 0, 0]
  D := fun i t => if (i = 0 ∧ 2 ≤ t) ∨ (i = 1 ∧ 3 ≤ t) then 1 else 0
  dsq := fun _ => 0
  hF := by decide +kernel

example : (∀ i, exB.F i ≠ ⊤ → exB.S i ≠ 0) ∧ exB.docSwitchers false 1 = {0, 1} ∧ exB.docSwitchers false 3 = {0} ∧
    exB.docSwitchers true 1 = {1} ∧ exB.docSwitchers false 4 = ∅ := by decide +kernel

example : estimate exB.frame (exB.opt (1 / 10)) false 1 = some (61 / 12) := by decide +kernel

example : 0 < (exB.opt (1 / 10)).eps ∧ (exB.opt (1 / 10)).eps ≤
    ∑ r ∈ switcherRows exB.frame (exB.opt (1 / 10)) false 1, exB.frame.w r.1 r.2 := by decide +kernel

/-- The same panel with a treatment that is withdrawn. -/
def exOut : Balanced (Fin 4) ℕ ℚ where
  t0 := 1
  T := 4
  Y := exB.Y
  F := exB.F
  cell := exB.cell
  S := ![-1, -1, 0, 0]
  D := fun i t => if (i = 0 ∧ 2 ≤ t) ∨ (i = 1 ∧ 3 ≤ t) then 0 else 1
  dsq := fun _ => 1
  hF := exB.hF

example : (∀ i, exOut.F i ≠ ⊤ → exOut.S i = -1) ∧ exOut.docSwitchers false 1 ≠ ∅ ∧
    exOut.signedDID false 1 = -(61 / 12) := by decide +kernel

/-- A panel observed in periods 1, 2, 3, 5 (period 4 is in nobody's data): unit 0 switches at 3, unit 1 never. -/
def exGap : Frame (Fin 2) ℕ ℚ where
  n := fun _ => 4
  t := fun _ k => ![1, 2, 3, 5] k
  y := fun i k => some (if i = 0 then ![10, 0, 0, 7] k else 0)
  d := fun i k => some (if i = 0 then ![0, 0, 1, 1] k else 0)
  w := fun _ _ => 1
  F := ![((3 : ℤ) : WithTop ℤ), ⊤]
  L := ![3, 0]
  S := ![1, 0]
  cell := fun _ => 0
  dsq := fun _ => 0

/-- Default options for `exGap`. -/
def exGapOpt : Opt ℚ where
  onlyNever := false
  dir := .all
  same := false
  samePl := false
  effects := 3
  placebo := 0
  tmin := 1
  tmax := 5
  eps := 1 / 10

/-- C57 (violated with a gap in the periods).  The documented effect at horizon 3 compares period 5 = F-1+3 with period
2 = F-1, a change of 7 for the switcher and 0 for its control; the reported one goes back three ROWS, to period 1, and is
-3.  Horizon 2 (period 4, not observed) has no estimate. -/
theorem C57_calendar_gap_violated :
    (∃ (r b : exGap.Row), exGap.F r.1 = ((exGap.time b + 1 : ℤ) : WithTop ℤ) ∧ exGap.time r = exGap.time b + 3 ∧ r.1 = b.1 ∧
      exGap.y r.1 r.2 = some 7 ∧ exGap.y b.1 b.2 = some 0) ∧
    (∀ k, exGap.y 1 k = some 0) ∧
    estimate exGap exGapOpt false 3 = some (-3) ∧ estimate exGap exGapOpt false 2 = none := by
  refine ⟨⟨⟨0, (3 : Fin 4)⟩, ⟨0, (1 : Fin 4)⟩, ?_⟩, ?_⟩ <;> decide +kernel

end Verif.Inter
