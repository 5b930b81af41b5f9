import Mathlib.Data.Rat.Defs
import Mathlib.Algebra.Order.Ring.Rat
import Mathlib.Data.List.Dedup
import Mathlib.Data.List.MinMax

/-!
# Validation of input data: executable model

Models `moderndid/core/preprocess/validators.py` and `PreprocessDataBuilder.validate`
(`core/preprocess/builders.py:104-133`).

A data frame is a list of named columns, the dtype information "is numeric", and rows that map a
column name to a cell.  Reading a column that does not exist raises (`polars.ColumnNotFoundError`).
Only the errors are modelled; warnings never stop the pipeline.  A formula is modelled by the list of
its variables (`[]` for `~1`); an unparsable formula is outside the model.
-/

namespace Verif.Valid

/-- A cell of a data frame. -/
inductive Cell
  | null
  | nan
  | posInf
  | negInf
  | num (q : ℚ)
  | str (s : String)
deriving DecidableEq

/-- `x < 0` for a cell; null and NaN do not compare below zero in polars, so `.any()` ignores them.
(Simplification: comparing a text column with 0 raises in polars; here it is false.) -/
def Cell.neg : Cell → Bool
  | .num q => decide (q < 0)
  | .negInf => true
  | _ => false

/-- A data frame. -/
structure Frame where
  /-- `df.columns` -/
  cols : List String
  /-- `series.dtype.is_numeric()`, `validators.py:729-731` -/
  numeric : String → Bool
  /-- the rows -/
  rows : List (String → Cell)

/-- Exceptions other than the collected validation errors. -/
inductive PyErr
  | columnNotFound
  | typeError
deriving DecidableEq

/-- Messages collected by the validators. -/
inductive Msg
  | missing (role name : String)
  | notNumeric (role name : String)
  | cohortVaries
  | duplicates
  | notPanel
  | manyClusters
  | clusterVaries
  | negativeWeights
  | negativeDose
  | negativePrePeriods
  | periodsNotTwo
  | treatNotBinary
  | treatVaries
  | noSwitchers
  | partitionVaries
  | groupsNotTwo
  | zeroNotIncluded
deriving DecidableEq

/-- The outcome of one validator: an exception, or the list of errors. -/
abbrev Out := Except PyErr (List Msg)

/-- Evaluate `k` once the columns `cs` are known to exist, raising otherwise. -/
def withCols {α : Type} (f : Frame) (cs : List String) (k : α) : Except PyErr α :=
  if ∀ c ∈ cs, c ∈ f.cols then .ok k else .error .columnNotFound

/-- Values of a column within one unit. -/
def within (f : Frame) (id c : String) (u : Cell) : List Cell :=
  (f.rows.filter fun r => r id = u).map fun r => r c

/-- `(df.group_by(id).agg(pl.col(c).n_unique()) > 1).any()`; null counts as a value. -/
def varies (f : Frame) (id c : String) : Bool :=
  (f.rows.map fun r => r id).dedup.any fun u => decide (1 < (within f id c u).dedup.length)

/-- `df.select([id, t]).is_duplicated().any()`. -/
def hasDuplicates (f : Frame) (id t : String) : Bool :=
  !decide ((f.rows.map fun r => (r id, r t)).Nodup)

/-- `df.group_by(id).len()["len"].max()` (`None` for an empty frame). -/
def maxObs (f : Frame) (id : String) : Option ℕ :=
  ((f.rows.map fun r => r id).dedup.map fun u => (f.rows.filter fun r => r id = u).length).max?

/-- Errors of `_check_panel_mismatch`, `validators.py:701-726`. -/
def panelMismatch (f : Frame) (id : Option String) (t : String) (panel : Bool) : Out :=
  match id with
  | none => .ok []
  | some i => withCols f [i, t] (if panel && decide (maxObs f i = some 1) then [.notPanel] else [])

/-- Missing columns among `(role, name)` pairs. -/
def missingOf (f : Frame) (l : List (String × String)) : List Msg :=
  (l.filter fun p => !decide (p.2 ∈ f.cols)).map fun p => .missing p.1 p.2

/-- Non-numeric columns among `(role, name)` pairs that exist. -/
def notNumericOf (f : Frame) (l : List (String × String)) : List Msg :=
  (l.filter fun p => decide (p.2 ∈ f.cols) && !f.numeric p.2).map fun p => .notNumeric p.1 p.2

/-! ## `att_gt` and `cont_did` -/

/-- The parts of `DIDConfig` / `ContDIDConfig` used by validation (`config.py:33-62,95-117`);
`dname` and `requiredPre` belong to `cont_did`. -/
structure DidCfg where
  yname : String
  tname : String
  gname : String
  idname : Option String
  panel : Bool
  weightsname : Option String
  clustervars : List String
  xvars : List String
  cont : Bool
  dname : Option String
  requiredPre : ℤ

/-- `ArgumentValidator`, `validators.py:230-241`. -/
def argumentErrors (c : DidCfg) : Out :=
  .ok (if c.cont && decide (c.requiredPre < 0) then [.negativePrePeriods] else [])

/-- The dose column, read only from a `ContDIDConfig` (`validators.py:53,76-77,260`). -/
def doseCol (c : DidCfg) : Option String := if c.cont then c.dname else none

/-- `ColumnValidator`, `validators.py:22-83`. -/
def columnErrors (c : DidCfg) (f : Frame) : Out :=
  let required := [("yname", c.yname), ("tname", c.tname), ("gname", c.gname)]
    ++ (if c.panel then c.idname.toList.map fun i => ("idname", i) else [])
  let e := missingOf f required
    ++ missingOf f (c.weightsname.toList.map fun w => ("weightsname", w))
    ++ missingOf f (c.clustervars.map fun v => ("clustervars", v))
    ++ missingOf f ((doseCol c).toList.map fun d => ("dname", d))
  .ok (if e.isEmpty then
      notNumericOf f ([("tname", c.tname), ("gname", c.gname)]
        ++ (c.idname.toList.map fun i => ("idname", i)) ++ [("yname", c.yname)])
      ++ missingOf f (c.xvars.map fun v => ("xformla", v))
      ++ notNumericOf f ((doseCol c).toList.map fun d => ("dname", d))
    else e)

/-- `WeightValidator`, `validators.py:205-221` (shared by all configurations). -/
def weightErrors (w : Option String) (f : Frame) : Out :=
  match w with
  | none => .ok []
  | some w => .ok (if decide (w ∈ f.cols) && f.numeric w && f.rows.any (fun r => (r w).neg)
      then [.negativeWeights] else [])

/-- `TreatmentValidator`, `validators.py:93-121`. -/
def treatmentErrors (c : DidCfg) (f : Frame) : Out :=
  match c.panel, c.idname with
  | true, some i => withCols f [i, c.gname, c.tname] (if varies f i c.gname then [.cohortVaries] else [])
  | _, _ => .ok []

/-- `PanelStructureValidator`, `validators.py:131-158`. -/
def structureErrors (c : DidCfg) (f : Frame) : Out := do
  let e ← panelMismatch f c.idname c.tname c.panel
  match c.panel, c.idname with
  | true, some i =>
    let d ← withCols f [i, c.tname] (if hasDuplicates f i c.tname then [Msg.duplicates] else [])
    pure (e ++ d)
  | _, _ => pure e

/-- `ClusterValidator`, `validators.py:168-195`. -/
def clusterErrors (c : DidCfg) (f : Frame) : Out :=
  let vs := c.clustervars.filter fun v => decide (some v ≠ c.idname)
  if 1 < vs.length then .ok [.manyClusters]
  else match c.panel, c.idname with
    | true, some i => withCols f (if vs.isEmpty then [] else i :: vs)
        ((vs.filter fun v => varies f i v).map fun _ => .clusterVaries)
    | _, _ => .ok []

/-- `DoseValidator`, `validators.py:251-273`. -/
def doseErrors (c : DidCfg) (f : Frame) : Out :=
  match doseCol c with
  | none => .ok []
  | some d => .ok (if decide (d ∈ f.cols) && f.rows.any (fun r => (r d).neg) then [.negativeDose] else [])

/-- `CompositeValidator.validate`, `validators.py:688-698`: run the validators in order, collect all
errors; an exception in one of them propagates. -/
def composite (vs : List Out) : Out :=
  vs.foldlM (fun acc v => do let e ← v; pure (acc ++ e)) []

/-- The default validators of `did` and `cont_did`, `validators.py:674-686`. -/
def didValidate (c : DidCfg) (f : Frame) : Out :=
  composite ([argumentErrors c, columnErrors c f, weightErrors c.weightsname f, treatmentErrors c f,
    structureErrors c f, clusterErrors c f] ++ (if c.cont then [doseErrors c f] else []))

/-! ## Two-period estimators (`drdid`, `ordid`, `ipwdid`) -/

/-- The parts of `TwoPeriodDIDConfig` used by validation (`config.py:73-92`). -/
structure TwoCfg where
  yname : String
  tname : String
  treat : String
  idname : Option String
  panel : Bool
  weightsname : Option String

/-- `PrePostColumnValidator`, `validators.py:283-325`. -/
def twoColumnErrors (c : TwoCfg) (f : Frame) : Out :=
  let required := [("yname", c.yname), ("tname", c.tname), ("treat_col", c.treat)]
    ++ (if c.panel then c.idname.toList.map fun i => ("idname", i) else [])
  let e := missingOf f required ++ missingOf f (c.weightsname.toList.map fun w => ("weightsname", w))
  .ok (if e.isEmpty then
      notNumericOf f ([("tname", c.tname), ("treat_col", c.treat)]
        ++ (c.idname.toList.map fun i => ("idname", i)) ++ [("yname", c.yname)])
    else e)

/-- `sorted(series.unique().to_list())` raises when `None` is compared with a value. -/
def sortRaises (l : List Cell) : Bool := decide (Cell.null ∈ l) && decide (1 < l.length)

/-- The period check, `validators.py:347-349`. -/
def periodErrors (ts : List Cell) : Out :=
  if sortRaises ts then .error .typeError else .ok (if ts.length ≠ 2 then [.periodsNotTwo] else [])

/-- The treatment indicator check, `validators.py:351-353`. -/
def indicatorErrors (gs : List Cell) : Out :=
  if sortRaises gs then .error .typeError
  else .ok (if gs.length ≠ 2 ∨ ¬ ∀ g ∈ gs, g = .num 0 ∨ g = .num 1 then [.treatNotBinary] else [])

/-- `PrePostDataValidator`, `validators.py:335-355`. -/
def twoDataErrors (c : TwoCfg) (f : Frame) : Out := do
  let ts ← withCols f [c.tname] ((f.rows.map fun r => r c.tname).dedup)
  let e1 ← periodErrors ts
  let gs ← withCols f [c.treat] ((f.rows.map fun r => r c.treat).dedup)
  let e2 ← indicatorErrors gs
  pure (e1 ++ e2)

/-- `PrePostPanelValidator`, `validators.py:365-390`. -/
def twoPanelErrors (c : TwoCfg) (f : Frame) : Out := do
  let e ← panelMismatch f c.idname c.tname c.panel
  match c.panel, c.idname with
  | true, some i =>
    let d ← withCols f [i, c.treat] (if varies f i c.treat then [Msg.treatVaries] else [])
    pure (e ++ d)
  | _, _ => pure e

/-- The validators of the two-period configurations, `validators.py:646-653`. -/
def twoValidate (c : TwoCfg) (f : Frame) : Out :=
  composite [twoColumnErrors c f, .ok [], twoDataErrors c f, twoPanelErrors c f, weightErrors c.weightsname f]

/-! ## Two-period triple differences -/

/-- The parts of `DDDConfig` used by validation (`config.py:120-144`; `panel` keeps its default `True`
in `preprocess_ddd_2periods`, `core/preprocessing.py:463-479`). -/
structure DddCfg where
  yname : String
  tname : String
  idname : String
  gname : String
  pname : String
  xvars : List String
  weightsname : Option String
  cluster : Option String

/-- `DDDColumnValidator`, `validators.py:512-560`. -/
def dddColumnErrors (c : DddCfg) (f : Frame) : Out :=
  let e := missingOf f [("yname", c.yname), ("tname", c.tname), ("idname", c.idname), ("gname", c.gname),
      ("pname", c.pname)]
    ++ missingOf f (c.cluster.toList.map fun w => ("cluster", w))
    ++ missingOf f (c.weightsname.toList.map fun w => ("weightsname", w))
    ++ missingOf f (c.xvars.map fun v => ("xformla", v))
  .ok (if e.isEmpty then notNumericOf f [("yname", c.yname), ("tname", c.tname), ("idname", c.idname),
      ("gname", c.gname)] else e)

/-- `DDDInvarianceValidator`, `validators.py:573-592`. -/
def dddInvarianceErrors (c : DddCfg) (f : Frame) : Out :=
  withCols f [c.idname, c.pname, c.gname]
    ((if varies f c.idname c.pname then [.partitionVaries] else [])
      ++ (if varies f c.idname c.gname then [.cohortVaries] else []))

/-- `DDDDataValidator`, `validators.py:595-616`.  `np.sort` puts NaN (and null) last, so the first of
the two sorted values is 0 iff 0 occurs and nothing is negative. -/
def dddDataErrors (c : DddCfg) (f : Frame) : Out := do
  let ts ← withCols f [c.tname] ((f.rows.map fun r => r c.tname).dedup)
  let gs ← withCols f [c.gname] ((f.rows.map fun r => r c.gname).dedup)
  pure ((if ts.length ≠ 2 then [Msg.periodsNotTwo] else [])
    ++ (if gs.length ≠ 2 then [Msg.groupsNotTwo]
        else if ¬ (Cell.num 0 ∈ gs ∧ ∀ g ∈ gs, g.neg = false) then [Msg.zeroNotIncluded] else []))

/-- The validators of the two-period triple difference, `validators.py:664-672`. -/
def dddValidate (c : DddCfg) (f : Frame) : Out :=
  composite [dddColumnErrors c f, .ok [], panelMismatch f (some c.idname) c.tname true,
    dddInvarianceErrors c f, dddDataErrors c f, weightErrors c.weightsname f]

/-! ## `did_multiplegt` -/

/-- The parts of `DIDInterConfig` used by validation (`config.py:147-196`). -/
structure InterCfg where
  yname : String
  tname : String
  gname : String
  dname : String
  cluster : Option String
  weightsname : Option String
  xvars : List String

/-- `DIDInterColumnValidator`, `validators.py:410-446`. -/
def interColumnErrors (c : InterCfg) (f : Frame) : Out :=
  .ok (missingOf f [("yname", c.yname), ("tname", c.tname), ("gname", c.gname), ("dname", c.dname)]
    ++ missingOf f (c.weightsname.toList.map fun w => ("weightsname", w))
    ++ missingOf f (c.cluster.toList.map fun w => ("cluster", w))
    ++ missingOf f (c.xvars.map fun v => ("xformla", v)))

/-- `DIDInterTreatmentValidator`, `validators.py:449-471`: units with more than one treatment value. -/
def interTreatmentErrors (c : InterCfg) (f : Frame) : Out :=
  withCols f [c.gname, c.dname] (if varies f c.gname c.dname then [] else [.noSwitchers])

/-- `DIDInterPanelValidator`, `validators.py:484-509`. -/
def interPanelErrors (c : InterCfg) (f : Frame) : Out :=
  withCols f [c.gname, c.tname] (if hasDuplicates f c.gname c.tname then [.duplicates] else [])

/-- The validators of `did_multiplegt`, `validators.py:655-662`. -/
def interValidate (c : InterCfg) (f : Frame) : Out :=
  composite [interColumnErrors c f, .ok [], interTreatmentErrors c f, interPanelErrors c f,
    weightErrors c.weightsname f]

/-- `PreprocessDataBuilder.validate`, `builders.py:104-133` with `ValidationResult.raise_if_invalid`:
the pipeline goes on only if there is neither an exception nor an error. -/
def accepted (o : Out) : Prop := o = .ok []

instance (o : Out) : Decidable (accepted o) := by
  unfold accepted
  match o with
  | .ok [] => exact isTrue rfl
  | .ok (_ :: _) => exact isFalse (by simp)
  | .error _ => exact isFalse (by simp)

end Verif.Valid
