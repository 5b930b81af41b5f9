import Mathlib.Algebra.Order.Ring.Defs
import Mathlib.Data.List.Basic
import Mathlib.Order.WithBot

/-!
# Switch timing: executable model

`SwitcherIdentifier` (`moderndid/core/preprocess/transformers.py:561-685`).  All its operations are per unit, so the model
works on the rows of one unit sorted by period (line 570).  A missing treatment is `none`.
-/

namespace Verif.Inter

variable {K : Type*} [Ring K] [LinearOrder K]

/-- One row of a unit: period and treatment. -/
structure Obs (K : Type*) where
  t : ℤ
  d : Option K

/-- `d - d.shift(1)`: missing if either is missing. -/
def sub? (prev cur : Option K) : Option K :=
  match prev, cur with
  | some p, some d => some (d - p)
  | _, _ => none

/-- Rows with `_d_diff`, `transformers.py:572`. -/
def diffs : Option K → List (Obs K) → List (Obs K × Option K)
  | _, [] => []
  | prev, o :: os => (o, sub? prev o.d) :: diffs o.d os

/-- `_d_diff` is not missing and not zero, `transformers.py:583,625,648`. -/
def switches (x : Obs K × Option K) : Bool :=
  match x.2 with
  | none => false
  | some v => decide (v ≠ 0)

/-- Rows of the first period, `transformers.py:575,634`. -/
def firstRow (rows : List (Obs K)) : Option (Obs K) :=
  rows.find? fun o => decide (some o.t = (rows.map Obs.t).min?)

/-- `_d_sq_pre` / `d_sq`. -/
def baseline (rows : List (Obs K)) : Option K := (firstRow rows).bind Obs.d

/-- `_diff_from_sq > 0` (false when missing), `transformers.py:580,602`. -/
def above (b d : Option K) : Bool :=
  match sub? b d with
  | none => false
  | some v => decide (0 < v)

/-- `_diff_from_sq < 0`, `transformers.py:580,609`. -/
def below (b d : Option K) : Bool :=
  match sub? b d with
  | none => false
  | some v => decide (v < 0)

/-- Rows at which the running indicators "has been above" and "has been below" are not both set,
`transformers.py:600-620`. -/
def dropCrossed (b : Option K) : Bool → Bool → List (Obs K × Option K) → List (Obs K × Option K)
  | _, _, [] => []
  | u, v, x :: xs =>
    let u' := u || above b x.1.d
    let v' := v || below b x.1.d
    if u' && v' then dropCrossed b u' v' xs else x :: dropCrossed b u' v' xs

/-- What `SwitcherIdentifier` attaches to a unit. -/
structure Switch (K : Type*) where
  /-- remaining rows -/
  rows : List (Obs K)
  /-- `F_g`, `⊤` = infinity -/
  F : WithTop ℤ
  /-- `d_sq` -/
  dsq : Option K
  /-- `S_g` -/
  S : ℤ
  /-- `L_g` -/
  L : ℤ

/-- `F_g`: first period with a non-zero change, `transformers.py:624-631`. -/
def firstSwitch (rows : List (Obs K × Option K)) : Option ℤ := ((rows.filter switches).map fun x => x.1.t).min?

/-- `S_g` given the first non-zero change in row order, `transformers.py:647-663`. -/
def direction (F : Option ℤ) (first : Option K) : ℤ :=
  match F, first with
  | some _, some v => if 0 < v then 1 else if v < 0 then -1 else 0
  | _, _ => 0

/-- `transformers.py:561-663`; the optional filter of lines 665-681 is not modelled. -/
def identify (keepBidirectional : Bool) (path : List (Obs K)) : Switch K :=
  let ds := diffs none path
  let L := match firstSwitch ds, (path.map Obs.t).max? with
    | some f, some m => m - f + 1
    | _, _ => 0
  let kept := if keepBidirectional then ds else dropCrossed (baseline path) false false ds
  let F := firstSwitch kept
  { rows := kept.map Prod.fst
    F := match F with
      | some f => (f : WithTop ℤ)
      | none => ⊤
    dsq := baseline (kept.map Prod.fst)
    S := direction F (((kept.filter switches).head?).bind Prod.snd)
    L := L }

end Verif.Inter
