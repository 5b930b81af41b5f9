import Verif.DR.RefitModel
import Verif.Valid.TwoModel

set_option linter.unusedSectionVars false
set_option linter.unusedVariables false

/-!
# `drdid`, `ipwdid` and `ordid` from the data frame to the estimate

`drdid/drdid.py`, `drdid/ipwdid.py`, `drdid/ordid.py`, `preprocess_drdid` (`core/preprocessing.py:13-93`), the two-period
validators (`core/preprocess/validators.py:335-390, 205-221, 701-726`), `get_two_period_pipeline`
(`core/preprocess/transformers.py:1156-1167`) and `_build_two_period_did_data` (`core/preprocess/builders.py:257-320`).

Simplifications: the columns named by the user exist and are numeric; the unit, period and treatment columns contain no
null; the covariate formula is evaluated row by row, so a row carries the values of its model-matrix columns.  The
bootstrap is not part of this model (see `Verif.DR.RefitModel`).  `none` as an estimate is NaN.
-/

namespace Verif.DR.Entry

open Verif.Panel Verif.Valid Verif.DR

variable {ι κ K : Type*} [LinearOrder ι] [Fintype κ] [Field K] [LinearOrder K]

/-- Outcome, sampling weight and model-matrix row of a frame row. -/
structure Vals (κ K : Type*) where
  y : K
  w : K
  x : κ → K

/-- Payload of an input row: the treatment column and the other columns used, `none` if one of them is null. -/
structure Obs (κ K : Type*) where
  d : ℤ
  v : Option (Vals κ K)

/-- Payload of a complete row. -/
structure Full (κ K : Type*) where
  d : ℤ
  y : K
  w : K
  x : κ → K

/-- The user's options (`drdid.py:34-49`): are `treatname`/`idname` given, and the other switches. -/
structure Opts (K : Type*) where
  treat : Bool
  unit : Bool
  panel : Bool
  est : String
  level : K
  bootType : String
  nBoot : ℤ

/-- The estimators the three functions can run. -/
inductive Est
  | impPanel | tradPanel | impRC | effRC | impLocalRC | tradRC
  | ipwPanel | stdIpwPanel | ipwRC | stdIpwRC
  | regPanel | regRC
  deriving DecidableEq, Repr

inductive Err | option | data | estimator (e : EstErr)
  deriving DecidableEq, Repr

/-- Option checks and choice of the estimator in `drdid`, `drdid.py:227-255, 291-370`. -/
def drChoose (o : Opts K) : Except Err Est :=
  if o.treat = false then .error .option else
  if o.panel = true ∧ o.unit = false then .error .option else
  if o.panel = true ∧ o.est ∉ ["imp", "trad"] then .error .option else
  if o.panel = false ∧ o.est ∉ ["imp", "trad", "imp_local", "trad_local"] then .error .option else
  if ¬ (0 < o.level ∧ o.level < 1) then .error .option else
  if o.bootType ∉ ["weighted", "multiplier"] then .error .option else
  if o.nBoot < 1 then .error .option else
  if o.panel then (if o.est = "imp" then .ok .impPanel else .ok .tradPanel)
  else if o.est = "imp" then .ok .impRC
  else if o.est = "trad" then .ok .effRC
  else if o.est = "imp_local" then .ok .impLocalRC
  else .ok .tradRC

/-- `ipwdid.py:190-203, 238-291`. -/
def ipwChoose (o : Opts K) : Except Err Est :=
  if o.treat = false then .error .option else
  if o.panel = true ∧ o.unit = false then .error .option else
  if o.est ∉ ["ipw", "std_ipw"] then .error .option else
  if o.bootType ∉ ["weighted", "multiplier"] then .error .option else
  if o.nBoot < 1 then .error .option else
  if ¬ (0 < o.level ∧ o.level < 1) then .error .option else
  if o.panel then (if o.est = "ipw" then .ok .ipwPanel else .ok .stdIpwPanel)
  else if o.est = "ipw" then .ok .ipwRC else .ok .stdIpwRC

/-- `ordid.py:154-163, 195-218` (no method, no trimming). -/
def orChoose (o : Opts K) : Except Err Est :=
  if o.treat = false then .error .option else
  if o.panel = true ∧ o.unit = false then .error .option else
  if o.bootType ∉ ["weighted", "multiplier"] then .error .option else
  if o.nBoot < 1 then .error .option else
  if o.panel then .ok .regPanel else .ok .regRC

/-- `PrePostDataValidator`, `validators.py:347-353`: two periods, treatment values exactly 0 and 1. -/
def dataOk (df : List (Row ι ℤ (Obs κ K))) : Bool :=
  decide (nUnique (df.map Row.t) = 2) &&
    decide (nUnique (df.map fun r => r.val.d) = 2) && df.all fun r => decide (r.val.d = 0 ∨ r.val.d = 1)

/-- `PrePostPanelValidator`, `validators.py:377-388, 709-718`: some unit has several rows, no unit changes treatment. -/
def panelOk (df : List (Row ι ℤ (Obs κ K))) : Bool :=
  (df.any fun r => decide ((df.filter fun s => s.id = r.id).length ≠ 1)) &&
    df.all fun r => decide (nUnique ((df.filter fun s => s.id = r.id).map fun s => s.val.d) ≤ 1)

/-- `WeightValidator`, `validators.py:205-221` (nulls compare as not negative). -/
def weightsOk (df : List (Row ι ℤ (Obs κ K))) : Bool :=
  df.all fun r => match r.val.v with | none => true | some v => decide (0 ≤ v.w)

/-- A row without nulls. -/
def full? (r : Row ι ℤ (Obs κ K)) : Option (Row ι ℤ (Full κ K)) :=
  r.val.v.map fun v => ⟨r.id, r.t, ⟨r.val.d, v.y, v.w, v.x⟩⟩

/-- `MissingDataHandler`, `transformers.py:78-90`: on panels any null is an error, otherwise the rows are dropped. -/
def dropNulls (panel : Bool) (df : List (Row ι ℤ (Obs κ K))) : Option (List (Row ι ℤ (Full κ K))) :=
  let c := df.filterMap full?
  if c.length < df.length ∧ panel = true then none else some c

/-- Mean of the weight column. -/
def meanW (df : List (Row ι ℤ (Full κ K))) : K := (df.map fun r => r.val.w).sum / (df.length : K)

/-- `WeightNormalizer`, `transformers.py:94-104`. -/
def normW (df : List (Row ι ℤ (Full κ K))) : List (Row ι ℤ (Full κ K)) :=
  df.map fun r => ⟨r.id, r.t, { r.val with w := r.val.w / meanW df }⟩

/-- The fitting routines for every sample size. -/
structure Fits (κ K : Type*) where
  ols : ∀ n, OLS (Fin n) κ K
  logit : ∀ n, Logit (Fin n) κ K
  ipt : ∀ n, Logit (Fin n) κ K

/-- `1e-6`. -/
def lo : K := 1 / 1000000

/-- `1 - 1e-6`. -/
def hi : K := 1 - 1 / 1000000

/-- An estimator's answer as the answer of the call. -/
def ofEst {A : Type*} : Except EstErr A → Except Err A
  | .ok a => .ok a
  | .error e => .error (.estimator e)

/-- The panel estimators by name, `drdid.py:292-317`, `ipwdid.py:239-264`, `ordid.py:196-206`. -/
def panelEst (f : Fits κ K) (e : Est) (level : K) (n : ℕ) (y1 y0 : Fin n → K) (d : Fin n → Bool) (x : Fin n → κ → K)
    (w : Fin n → K) : Except Err (Option K) :=
  match e with
  | .impPanel => ofEst ((drdidImpPanel (f.ols n) (f.ipt n) lo hi level y1 y0 d x w).map some)
  | .tradPanel => ofEst ((drdidPanel (f.ols n) (f.logit n) lo hi level y1 y0 d x w).map some)
  | .ipwPanel => ofEst (ipwDidPanel (f.logit n) lo hi level y1 y0 d x w)
  | .stdIpwPanel => ofEst (stdIpwDidPanel (f.logit n) lo hi level y1 y0 d x w)
  | .regPanel => ofEst (regDidPanel (f.ols n) y1 y0 d x w)
  | _ => .error .option

/-- The arrays of `_build_two_period_did_data`, `builders.py:300-309`: treatment, weights and covariates are read from the
post rows. -/
def runPanel (f : Fits κ K) (e : Est) (level : K) (o : TwoData ι (Full κ K)) : Except Err (Option K) :=
  panelEst f e level o.post.length (fun i => (o.post[i]).val.y)
    (fun i => ((o.pre.map fun r => r.val.y)[(i : ℕ)]?).getD 0) (fun i => decide ((o.post[i]).val.d = 1))
    (fun i => (o.post[i]).val.x) (fun i => (o.post[i]).val.w)

/-- The repeated cross-section estimators by name, `drdid.py:319-370`, `ipwdid.py:266-291`, `ordid.py:208-218`; `none`
also stands for an exception raised by the estimator. -/
def rcEst (f : Fits κ K) (e : Est) (level : K) (n : ℕ) (y : Fin n → K) (post d : Fin n → Bool) (x : Fin n → κ → K)
    (w : Fin n → K) : Except Err (Option K) :=
  match e with
  | .impRC => .ok (drdidImpRC (f.ols n) (f.ipt n) lo hi level y post d x w)
  | .effRC => .ok (drdidRC (f.ols n) (f.logit n) lo hi level y post d x w)
  | .impLocalRC => .ok (drdidImpLocalRC (f.ols n) (f.ipt n) lo hi level y post d x w)
  | .tradRC => .ok (drdidTradRC (f.ols n) (f.logit n) lo hi level y post d x w)
  | .ipwRC => .ok (ipwDidRC (f.logit n) lo hi level y post d x w)
  | .stdIpwRC => .ok (stdIpwDidRC (f.logit n) lo hi level y post d x w)
  | .regRC => .ok (regDidRC (f.ols n) y post d x w)
  | _ => .error .option

/-- The arrays of `_build_two_period_did_data` for repeated cross-sections, `builders.py:311-320`. -/
def runRC (f : Fits κ K) (e : Est) (level : K) (t1 : ℤ) (df : List (Row ι ℤ (Full κ K))) : Except Err (Option K) :=
  rcEst f e level df.length (fun i => (df[i]).val.y) (fun i => decide ((df[i]).t = t1))
    (fun i => decide ((df[i]).val.d = 1)) (fun i => (df[i]).val.x) (fun i => (df[i]).val.w)

/-- Treatment and weight, the columns `PrePostInvarianceChecker` compares, `transformers.py:508-517`. -/
def invKey (v : Full κ K) : ℤ × K := (v.d, v.w)

/-- From the frame to the estimate once the estimator is chosen: validation, null handling, weight normalisation,
balancing, invariance check, arrays, estimator. -/
def runFrame (f : Fits κ K) (e : Est) (panel : Bool) (level : K) (df : List (Row ι ℤ (Obs κ K))) :
    Except Err (Option K) :=
  if dataOk df = false then .error .data else
  if panel = true ∧ panelOk df = false then .error .data else
  if weightsOk df = false then .error .data else
  match dropNulls panel df with
  | none => .error .data
  | some c =>
    let d := normW c
    if panel then
      match twoBuild invKey d with
      | none => .error .data
      | some o => runPanel f e level o
    else
      match sortedTimes d with
      | [_, t1] => runRC f e level t1 d
      | _ => .error .data

/-- `drdid`, `drdid.py:34-395`. -/
def drdidCall (f : Fits κ K) (o : Opts K) (df : List (Row ι ℤ (Obs κ K))) : Except Err (Option K) :=
  match drChoose o with
  | .error e => .error e
  | .ok e => runFrame f e o.panel o.level df

/-- `ipwdid`, `ipwdid.py:32-316`. -/
def ipwdidCall (f : Fits κ K) (o : Opts K) (df : List (Row ι ℤ (Obs κ K))) : Except Err (Option K) :=
  match ipwChoose o with
  | .error e => .error e
  | .ok e => runFrame f e o.panel o.level df

/-- `ordid`, `ordid.py:30-241`. -/
def ordidCall (f : Fits κ K) (o : Opts K) (df : List (Row ι ℤ (Obs κ K))) : Except Err (Option K) :=
  match orChoose o with
  | .error e => .error e
  | .ok e => runFrame f e o.panel o.level df

end Verif.DR.Entry
