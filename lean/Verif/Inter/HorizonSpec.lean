import Verif.Inter.Horizon

/-!
# Horizon estimator: specification

What `docs/source/background/didinter.rst` (sections "Estimation", "Normalized Effects", "Cost-Benefit Analysis",
"Pre-Treatment Testing") and the docstring of `did_multiplegt` say, written without the helpers of the model.
-/

set_option linter.unusedSectionVars false

namespace Verif.Inter

open Finset

variable {ι β K : Type*} [Fintype ι] [DecidableEq ι] [DecidableEq β] [Field K] [LinearOrder K]

/-- Rows of the same period and baseline whose unit has not switched yet (never switches, under `only_never_switchers`) and
whose outcome change is observed. -/
def controls (P : Frame ι β K) (o : Opt K) (pl : Bool) (h : ℕ) (r : P.Row) : Finset P.Row :=
  univ.filter fun s => P.time s = P.time r ∧ P.cell s.1 = P.cell r.1 ∧ (P.time r : WithTop ℤ) < P.F s.1 ∧
    (o.onlyNever = true → (o.tmax : WithTop ℤ) < P.F s.1) ∧ P.diff pl h s ≠ none

/-- The admitted directions. -/
def Admitted : Dir → ℤ → Prop
  | .all, S => S ≠ 0
  | .into, S => S = 1
  | .out, S => S = -1

instance decAdmitted (d : Dir) (S : ℤ) : Decidable (Admitted d S) :=
  match d with
  | .all => inferInstanceAs (Decidable (S ≠ 0))
  | .into => inferInstanceAs (Decidable (S = 1))
  | .out => inferInstanceAs (Decidable (S = -1))

/-- Rows at which a unit is `h` periods past its switch, with an observed outcome change and with controls. -/
def switcherRows (P : Frame ι β K) (o : Opt K) (pl : Bool) (h : ℕ) : Finset P.Row :=
  univ.filter fun r => P.F r.1 = ((P.time r - h + 1 : ℤ) : WithTop ℤ) ∧ (h : ℤ) ≤ P.L r.1 ∧ Admitted o.dir (P.S r.1) ∧
    sameOk P o r.1 = true ∧ P.diff pl h r ≠ none ∧ 0 < ∑ s ∈ controls P o pl h r, P.w s.1 s.2

/-- Outcome change of a row minus the weighted mean change of its controls. -/
def rowDid (P : Frame ι β K) (o : Opt K) (pl : Bool) (h : ℕ) (r : P.Row) : K :=
  (P.diff pl h r).getD 0 -
    (∑ s ∈ controls P o pl h r, P.w s.1 s.2 * (P.diff pl h s).getD 0) / ∑ s ∈ controls P o pl h r, P.w s.1 s.2

/-- A balanced panel over consecutive periods `t0, ..., t0+T-1`, no missing outcome. -/
structure Balanced (ι β K : Type*) where
  t0 : ℤ
  T : ℕ
  /-- outcomes -/
  Y : ι → ℤ → K
  /-- first switch, infinity when there is none -/
  F : ι → WithTop ℤ
  /-- baseline treatment (and trend) cell -/
  cell : ι → β
  /-- direction of the first switch -/
  S : ι → ℤ
  /-- treatments -/
  D : ι → ℤ → K
  /-- baseline treatment -/
  dsq : ι → K
  /-- a switch needs a preceding period -/
  hF : ∀ i, ((t0 + 1 : ℤ) : WithTop ℤ) ≤ F i

/-- Last period. -/
def Balanced.last (B : Balanced ι β K) : ℤ := B.t0 + B.T - 1

/-- `F_g` with the documented convention `F_g = T + 1` for units that never switch. -/
def Balanced.Fdoc (B : Balanced ι β K) (i : ι) : ℤ := (B.F i).untopD (B.last + 1)

/-- Units of the same baseline that have not switched by `F_g - 1 + l`. -/
def Balanced.docControls (B : Balanced ι β K) (l : ℕ) (i : ι) : Finset ι :=
  univ.filter fun j => B.cell j = B.cell i ∧ B.Fdoc i - 1 + l < B.Fdoc j

/-- `Y_{g,F_g-1+l} - Y_{g,F_g-1}`, or `Y_{g,F_g-1-l} - Y_{g,F_g-1}` for a placebo, with `F` of unit `i`. -/
def Balanced.change (B : Balanced ι β K) (pl : Bool) (l : ℕ) (i j : ι) : K :=
  B.Y j (if pl then B.Fdoc i - 1 - l else B.Fdoc i - 1 + l) - B.Y j (B.Fdoc i - 1)

/-- `DID_{g,l}`, `DID^{pl}_{g,l}`. -/
def Balanced.DID (B : Balanced ι β K) (pl : Bool) (l : ℕ) (i : ι) : K :=
  B.change pl l i i - (∑ j ∈ B.docControls l i, B.change pl l i j) / (B.docControls l i).card

/-- Units with a `DID_{g,l}`: they switch, `F_g - 1 + l` is in the panel, controls exist (and, for placebos, the period
`F_g - 1 - l` is in the panel). -/
def Balanced.docSwitchers (B : Balanced ι β K) (pl : Bool) (l : ℕ) : Finset ι :=
  univ.filter fun i => B.Fdoc i - 1 + l ≤ B.last ∧ (B.docControls l i).Nonempty ∧
    (pl = true → B.t0 ≤ B.Fdoc i - 1 - l)

/-- The frame the code sees for such a panel, unit weights (lines 932-943 of `transformers.py`), `L_g = t_max - F_g + 1`. -/
def Balanced.frame (B : Balanced ι β K) : Frame ι β K where
  n := fun _ => B.T
  t := fun _ k => B.t0 + k.1
  y := fun i k => some (B.Y i (B.t0 + k.1))
  d := fun i k => some (B.D i (B.t0 + k.1))
  w := fun _ _ => 1
  F := B.F
  L := fun i => (B.F i).untopD (B.last + 1) |> fun f => B.last - f + 1
  S := B.S
  cell := B.cell
  dsq := B.dsq

/-- Default options. -/
def Balanced.opt (B : Balanced ι β K) (eps : K) : Opt K where
  onlyNever := false
  dir := .all
  same := false
  samePl := false
  effects := 1
  placebo := 0
  tmin := B.t0
  tmax := B.last
  eps := eps

end Verif.Inter
