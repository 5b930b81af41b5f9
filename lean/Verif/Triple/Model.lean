import Verif.DR.Model
import Verif.Agg.Model
import Mathlib.Data.List.Dedup

/-!
# Triple differences: executable model

`moderndid/didtriple/nuisance.py`, `nuisance_rc.py`, `estimators/ddd_panel.py`, `estimators/ddd_rc.py`,
`estimators/ddd_mp.py` (and the identical loop of `ddd_mp_rc.py`), `compute_agg_ddd.py`, the dispatch of `ddd.py`.
Subgroups: 4 treated and eligible, 3 treated and ineligible, 2 untreated and eligible, 1 untreated and ineligible.
-/

namespace Verif.Triple

open Verif.DR (mean ind fitted dot)

variable {ι κ K : Type*} [Fintype ι] [Fintype κ] [Field K] {sg : ι → ℕ}

/-! ## One comparison -/

/-- Units of subgroup 4 and of the comparison subgroup, `nuisance.py:256,461,596`. -/
abbrev Sub (sg : ι → ℕ) (c : ℕ) := {i : ι // sg i = 4 ∨ sg i = c}

/-- `pa4`, `nuisance.py:267`. -/
def pa4 (sg : ι → ℕ) (c : ℕ) (i : Sub sg c) : Bool := decide (sg i.1 = 4)

/-- `pa_comp`, `nuisance.py:268`. -/
def paComp (sg : ι → ℕ) (c : ℕ) (i : Sub sg c) : Bool := decide (sg i.1 = c)

/-- Restriction of an array to the comparison. -/
def onSub (sg : ι → ℕ) (c : ℕ) {A : Type*} (f : ι → A) (i : Sub sg c) : A := f i.1

/-- `est_method`. -/
inductive Est | dr | reg | ipw
  deriving DecidableEq, Repr

/-- `PScoreResult` and `OutcomeRegResult` of one comparison, `nuisance.py:20-67`. -/
structure Nuis (σ κ K : Type*) where
  ps : σ → K
  keep : σ → Bool
  H : κ → κ → K
  out : σ → K

/-- Numerical fits as oracles, one per comparison: weighted least squares among `sel`, logit scores, scaled inverse
information matrix (`cov_params() * n_sub`), inverse of `xpx`. -/
structure Fits (sg : ι → ℕ) (κ K : Type*) where
  ols : ∀ c, DR.OLS (Sub sg c) κ K
  logit : ∀ c, DR.Logit (Sub sg c) κ K
  hess : ∀ c, (Sub sg c → K) → (κ → κ → K)
  inv : (κ → κ → K) → κ → κ → K

section Ordered
variable [LinearOrder K]

/-- `compute_all_nuisances` for one comparison, `nuisance.py:117-136,436-539,542-566,569-654,657-684`:
scores capped at `hi` (`1 - 1e-6`), comparison units kept iff the score is below `level`; null results for the parts a
method does not use. -/
def nuis (F : Fits sg κ K) (m : Est) (hi level : K) (c : ℕ) (w : ι → K) (x : ι → κ → K) (dy : ι → K) :
    Nuis (Sub sg c) κ K :=
  let ps := fun i => min (F.logit c (onSub sg c w) (pa4 sg c) (onSub sg c x) i) hi
  { ps := if m = .reg then fun _ => 1 else ps
    keep := if m = .reg then fun _ => true else fun i => if pa4 sg c i then true else decide (ps i < level)
    H := if m = .reg then fun _ _ => 0 else F.hess c ps
    out := if m = .ipw then fun _ => 0
      else fitted (onSub sg c x) (F.ols c (onSub sg c w) (paComp sg c) (onSub sg c x) (onSub sg c dy)) }

end Ordered

/-- `w_treat`, `nuisance.py:270`. -/
def wTreat (sg : ι → ℕ) (c : ℕ) (n : Nuis (Sub sg c) κ K) (w : ι → K) (i : Sub sg c) : K :=
  ind n.keep i * w i.1 * ind (pa4 sg c) i

/-- `w_control`, `nuisance.py:271-274`. -/
def wControl (m : Est) (sg : ι → ℕ) (c : ℕ) (n : Nuis (Sub sg c) κ K) (w : ι → K) (i : Sub sg c) : K :=
  if m = .reg then ind n.keep i * w i.1 * ind (paComp sg c) i
  else ind n.keep i * w i.1 * n.ps i * ind (paComp sg c) i / (1 - n.ps i)

/-- Point estimate of one comparison, `nuisance.py:276-292`. -/
def compAtt (m : Est) (sg : ι → ℕ) (c : ℕ) (n : Nuis (Sub sg c) κ K) (w dy : ι → K) : K :=
  mean (fun i => wTreat sg c n w i * (dy i.1 - n.out i)) / mean (wTreat sg c n w) -
    mean (fun i => wControl m sg c n w i * (dy i.1 - n.out i)) / mean (wControl m sg c n w)

/-- `xpx`, `nuisance.py:405-407`. -/
def compGram (sg : ι → ℕ) (c : ℕ) (w : ι → K) (x : ι → κ → K) (a b : κ) : K :=
  mean fun i : Sub sg c => (w i.1 * ind (paComp sg c) i * x i.1 a) * x i.1 b

/-- `_compute_inf_func`, `nuisance.py:384-433`. -/
def compIF (inv : (κ → κ → K) → κ → κ → K) (m : Est) (sg : ι → ℕ) (c : ℕ) (n : Nuis (Sub sg c) κ K) (w : ι → K)
    (x : ι → κ → K) (dy : ι → K) (i : Sub sg c) : K :=
  let wt := wTreat sg c n w
  let wc := wControl m sg c n w
  let res := fun i : Sub sg c => dy i.1 - n.out i
  let attT := mean (fun i => wt i * res i) / mean wt
  let attC := mean (fun i => wc i * res i) / mean wc
  let m2 := fun k => mean fun i : Sub sg c => (wc i * (dy i.1 - n.out i - attC)) * x i.1 k
  let infPs := if m = .reg then 0 else
    dot (fun k => ∑ l, (w i.1 * (ind (pa4 sg c) i - n.ps i)) * x i.1 l * n.H l k) m2
  let asyOr := fun k => ∑ l, (w i.1 * ind (paComp sg c) i * (dy i.1 - n.out i)) * x i.1 l * inv (compGram sg c w x) l k
  let infTOr := if m = .ipw then 0 else - dot asyOr fun k => mean fun i : Sub sg c => wt i * x i.1 k
  let infCOr := if m = .ipw then 0 else - dot asyOr fun k => mean fun i : Sub sg c => wc i * x i.1 k
  let infControl := (wc i * res i - wc i * attC + infPs + infCOr) / mean wc
  let infTreat := (wt i * res i - wt i * attT + infTOr) / mean wt
  infTreat - infControl

/-- Scatter into an array of all units, zero elsewhere, `nuisance.py:314-316`. -/
def scatter (sg : ι → ℕ) (c : ℕ) (f : Sub sg c → K) (i : ι) : K :=
  if h : sg i = 4 ∨ sg i = c then f ⟨i, h⟩ else 0

/-- `n / n_k if n_k > 0 else 0`, `nuisance.py:204-211`. -/
def ratio (sg : ι → ℕ) (c : ℕ) : K :=
  if 0 < Fintype.card (Sub sg c) then (Fintype.card ι : K) / (Fintype.card (Sub sg c) : K) else 0

/-- Errors raised while estimating. -/
inductive DErr | negWeights | badSubgroup | noTreated | noControls
  deriving DecidableEq, Repr

section Ordered
variable [LinearOrder K]

/-- `_compute_did`, `nuisance.py:255-318`. -/
def compDid (inv : (κ → κ → K) → κ → κ → K) (m : Est) (sg : ι → ℕ) (c : ℕ) (n : Nuis (Sub sg c) κ K) (w : ι → K)
    (x : ι → κ → K) (dy : ι → K) : Except DErr (K × (ι → K)) :=
  if mean (wTreat sg c n w) = 0 then .error .noTreated
  else if mean (wControl m sg c n w) = 0 then .error .noControls
  else .ok (compAtt m sg c n w dy, scatter sg c (compIF inv m sg c n w x dy))

/-- Combination of the three comparisons, `nuisance.py:197-215`, `nuisance_rc.py:212-230`. -/
def combine3 (sg : ι → ℕ) (r3 r2 r1 : K × (ι → K)) : K × (ι → K) :=
  (r3.1 + r2.1 - r1.1, fun i => ratio sg 3 * r3.2 i + ratio sg 2 * r2.2 i - ratio sg 1 * r1.2 i)

/-- `compute_all_did`, `nuisance.py:183-215`. -/
def allDid (F : Fits sg κ K) (m : Est) (hi level : K) (w : ι → K) (x : ι → κ → K) (dy : ι → K) :
    Except DErr (K × (ι → K)) := do
  let r3 ← compDid F.inv m sg 3 (nuis F m hi level 3 w x dy) w x dy
  let r2 ← compDid F.inv m sg 2 (nuis F m hi level 2 w x dy) w x dy
  let r1 ← compDid F.inv m sg 1 (nuis F m hi level 1 w x dy) w x dy
  return combine3 sg r3 r2 r1

/-- `ddd_panel`, `ddd_panel.py:190-217,292-339`: validation, weights divided by their mean, estimation.  Not modelled:
warnings, the fits' own failures. -/
def dddPanel (F : Fits sg κ K) (m : Est) (hi level : K) (y1 y0 : ι → K) (x : ι → κ → K) (w0 : ι → K) :
    Except DErr (K × (ι → K)) :=
  if ∃ i, w0 i < 0 then .error .negWeights
  else if ∃ i, sg i ∉ [1, 2, 3, 4] then .error .badSubgroup
  else if ¬ ∃ i, sg i = 4 then .error .noTreated
  else allDid F m hi level (DR.normalize w0) x fun i => y1 i - y0 i

/-! ## Repeated cross-sections -/

/-- Fits for repeated cross-sections: regressions per (period, arm) cell. -/
structure FitsRC (sg : ι → ℕ) (κ K : Type*) where
  ols : ∀ c, DR.OLS (Sub sg c) κ K
  logit : ∀ c, DR.Logit (Sub sg c) κ K
  hess : ∀ c, (Sub sg c → K) → (κ → κ → K)
  inv : (κ → κ → K) → κ → κ → K

/-- Gram matrix over `n_sub` of one (period, arm) cell, `nuisance_rc.py:481-498,536-588`. -/
def cellGram (sg : ι → ℕ) (c : ℕ) (sel : Sub sg c → K) (w : ι → K) (x : ι → κ → K) (a b : κ) : K :=
  mean fun i : Sub sg c => (w i.1 * sel i) * x i.1 a * x i.1 b

/-- Trimming for one comparison, `nuisance_rc.py:660-662,701-703`: the uncapped score is compared with the level. -/
def rcKeep (F : FitsRC sg κ K) (m : Est) (level : K) (c : ℕ) (w : ι → K) (x : ι → κ → K) (i : Sub sg c) : Bool :=
  if m = .reg then true else if pa4 sg c i then true else
    decide (F.logit c (onSub sg c w) (pa4 sg c) (onSub sg c x) i < level)

/-- Scores of one comparison, `nuisance_rc.py:692-703,711-721`. -/
def rcPs (F : FitsRC sg κ K) (m : Est) (hi : K) (c : ℕ) (w : ι → K) (x : ι → κ → K) (i : Sub sg c) : K :=
  if m = .reg then 1 else min (F.logit c (onSub sg c w) (pa4 sg c) (onSub sg c x) i) hi

/-- `_fit_ols_cell`, `nuisance_rc.py:798-851`, for one period and arm (`0` for `ipw`, lines 854-870). -/
def rcOut (F : FitsRC sg κ K) (m : Est) (c : ℕ) (w : ι → K) (x : ι → κ → K) (y : ι → K) (post : ι → Bool)
    (pre treat : Bool) : Sub sg c → K :=
  if m = .ipw then fun _ => 0
  else fitted (onSub sg c x) (F.ols c (onSub sg c w) (DR.cellSel (pa4 sg c) (onSub sg c post) pre treat)
    (onSub sg c x) (onSub sg c y))

/-- Weight sums that must not vanish, `nuisance_rc.py:296-299,335-336`. -/
def rcGuard (m : Est) (d tr post : σ → Bool) (ps w : σ → K) [Fintype σ] : Option DErr :=
  if mean (DR.wTreatRC d tr w (DR.preK post)) = 0 ∨ mean (DR.wTreatRC d tr w (DR.postK post)) = 0 then some .noTreated
  else if m ≠ .reg ∧ (mean (DR.wContRC d tr ps w (DR.preK post)) = 0 ∨ mean (DR.wContRC d tr ps w (DR.postK post)) = 0)
  then some .noControls else none

/-- Matrix used for the regression of one (period, arm) cell. -/
def rcM (F : FitsRC sg κ K) (c : ℕ) (w : ι → K) (x : ι → κ → K) (post : ι → Bool) (pre treat : Bool) : κ → κ → K :=
  F.inv (cellGram sg c (fun i => (if treat then ind (pa4 sg c) i else 1 - ind (pa4 sg c) i) *
    (if pre then DR.preK (onSub sg c post) i else DR.postK (onSub sg c post) i)) w x)

/-- Point estimate of one comparison, `nuisance_rc.py:246-416`.  The formulas are, line by line, those of `drdid_rc` /
`reg_did_rc` / `std_ipw_did_rc` with `d = pa4` (on the comparison `pa_comp = 1 - pa4`), so the model calls the
definitions of `Verif.DR.Model`. -/
def compAttRC (F : FitsRC sg κ K) (m : Est) (hi level : K) (c : ℕ) (w : ι → K) (x : ι → κ → K) (y : ι → K)
    (post : ι → Bool) : K :=
  let d := pa4 sg c
  let tr := rcKeep F m level c w x
  let ps := rcPs F m hi c w x
  let out := rcOut F m c w x y post
  match m with
  | .reg => DR.regRC d (onSub sg c post) (out true false) (out false false) (onSub sg c y) (onSub sg c w)
  | .ipw => DR.ipwRC d tr (onSub sg c post) ps (onSub sg c y) (onSub sg c w)
  | .dr => DR.drRC d tr (onSub sg c post) ps (out true false) (out false false) (out true true) (out false true)
      (onSub sg c y) (onSub sg c w)

/-- Influence function of one comparison, `_compute_inf_func_rc`, `nuisance_rc.py:462-623`; same remark. -/
def compIFRC (F : FitsRC sg κ K) (m : Est) (hi level : K) (c : ℕ) (w : ι → K) (x : ι → κ → K) (y : ι → K)
    (post : ι → Bool) : Sub sg c → K :=
  let d := pa4 sg c
  let tr := rcKeep F m level c w x
  let ps := rcPs F m hi c w x
  let out := rcOut F m c w x y post
  let M := rcM F c w x post
  match m with
  | .reg => DR.regRCIF d (onSub sg c post) (out true false) (out false false) (onSub sg c y) (onSub sg c w)
      (onSub sg c x) (M true false) (M false false)
  | .ipw => DR.ipwRCIF d tr (onSub sg c post) ps (onSub sg c y) (onSub sg c w) (onSub sg c x) (F.hess c ps)
  | .dr => DR.drRCIF d tr (onSub sg c post) ps (out true false) (out false false) (out true true) (out false true)
      (onSub sg c y) (onSub sg c w) (onSub sg c x) (M true false) (M false false) (M true true) (M false true)
      (F.hess c ps)

/-- `_compute_did_rc`, `nuisance_rc.py:246-416`: guards, then the two parts. -/
def compDidRC (F : FitsRC sg κ K) (m : Est) (hi level : K) (c : ℕ) (w : ι → K) (x : ι → κ → K) (y : ι → K)
    (post : ι → Bool) : Except DErr (K × (ι → K)) :=
  match rcGuard m (pa4 sg c) (rcKeep F m level c w x) (onSub sg c post) (rcPs F m hi c w x) (onSub sg c w) with
  | some e => .error e
  | none => .ok (compAttRC F m hi level c w x y post, scatter sg c (compIFRC F m hi level c w x y post))

/-- `ddd_rc`, `ddd_rc.py:183-213` and its validation (the same as `ddd_panel`). -/
def dddRC (F : FitsRC sg κ K) (m : Est) (hi level : K) (y : ι → K) (post : ι → Bool) (x : ι → κ → K) (w0 : ι → K) :
    Except DErr (K × (ι → K)) :=
  if ∃ i, w0 i < 0 then .error .negWeights
  else if ∃ i, sg i ∉ [1, 2, 3, 4] then .error .badSubgroup
  else if ¬ ∃ i, sg i = 4 then .error .noTreated
  else do
    let w := DR.normalize w0
    let r3 ← compDidRC F m hi level 3 w x y post
    let r2 ← compDidRC F m hi level 2 w x y post
    let r1 ← compDidRC F m hi level 1 w x y post
    return combine3 sg r3 r2 r1

end Ordered

end Verif.Triple
