import Verif.Dist.Model

/-!
# Distributed DiD cells for repeated cross-sections: executable model

`moderndid/distributed/_did_partition.py:363-940` and the driver `moderndid/spark/_did_streaming.py:295-475`.
-/

namespace Verif.Dist

variable {κ K : Type*} [Fintype κ] [Field K] [LinearOrder K]

/-- One observation, `_did_partition.py:352-360`. -/
structure CRow (κ K : Type*) where
  x : κ → K
  d : Bool
  post : Bool
  y : K
  w : K

/-- The four (arm, period) cells, keys `cont_pre`, `cont_post`, `treat_pre`, `treat_post`. -/
inductive Arm | cpre | cpost | tpre | tpost
  deriving DecidableEq, Repr

/-- `(d_val == D) & (post == post_val)`, `_did_partition.py:394,531,848-849,912-913`. -/
def armMask (a : Arm) (r : CRow κ K) : Bool :=
  match a with
  | .cpre => !r.d && !r.post
  | .cpost => !r.d && r.post
  | .tpre => r.d && !r.post
  | .tpost => r.d && r.post

/-- Weight keys `w_treat_pre, w_treat_post, w_cont_pre, w_cont_post, w_d, w_dt1, w_dt0`, `_did_partition.py:484-494`. -/
inductive W | tpre | tpost | cpre | cpost | d | dt1 | dt0
  deriving DecidableEq, Repr

/-- Component keys `eta_*`, `_did_partition.py:496-503`. -/
inductive E | tpre | tpost | cpre | cpost | dpost | dt1post | dpre | dt0pre
  deriving DecidableEq, Repr

/-- Which weight belongs to which component. -/
def wOf : E → W
  | .tpre => .tpre
  | .tpost => .tpost
  | .cpre => .cpre
  | .cpost => .cpost
  | .dpost => .d
  | .dt1post => .dt1
  | .dpre => .d
  | .dt0pre => .dt0

/-- Trimming, `_did_partition.py:434-435,781-782` (`dr` and `ipw`). -/
def keepC (level : K) (ps : (κ → K) → K) (r : CRow κ K) : K :=
  if r.d then 1 else if ps r.x < level then 1 else 0

/-- The weights, `_did_partition.py:484-494,797-810` (`dr` and `ipw`). -/
def wRow (level : K) (ps : (κ → K) → K) (k : W) (r : CRow κ K) : K :=
  match k with
  | .tpre => keepC level ps r * r.w * dnum r.d * (1 - dnum r.post)
  | .tpost => keepC level ps r * r.w * dnum r.d * dnum r.post
  | .cpre => keepC level ps r * r.w * ps r.x * (1 - dnum r.d) * (1 - dnum r.post) / (1 - ps r.x)
  | .cpost => keepC level ps r * r.w * ps r.x * (1 - dnum r.d) * dnum r.post / (1 - ps r.x)
  | .d => keepC level ps r * r.w * dnum r.d
  | .dt1 => keepC level ps r * r.w * dnum r.d * dnum r.post
  | .dt0 => keepC level ps r * r.w * dnum r.d * (1 - dnum r.post)

/-- Fitted values per arm; zero for `ipw`, `_did_partition.py:437-438,475-480,784-793`. -/
def outC (m : Method) (β : Arm → κ → K) (a : Arm) (r : CRow κ K) : K := if m = .ipw then 0 else eta r.x (β a)

/-- `out_y_cont`, `_did_partition.py:482,795`. -/
def outCont (m : Method) (β : Arm → κ → K) (r : CRow κ K) : K :=
  dnum r.post * outC m β .cpost r + (1 - dnum r.post) * outC m β .cpre r

/-- The value averaged in each component, `_did_partition.py:496-503`. -/
def resRow (m : Method) (β : Arm → κ → K) (e : E) (r : CRow κ K) : K :=
  match e with
  | .tpre | .tpost | .cpre | .cpost => r.y - outCont m β r
  | .dpost | .dt1post => outC m β .tpost r - outC m β .cpost r
  | .dpre | .dt0pre => outC m β .tpre r - outC m β .cpre r

/-- Moment vectors, `_did_partition.py:544-554`: `w_treat_post * post`, `w_treat_pre * (1 - post)`,
`w_cont_* (y - out)`, `w_cont_post * post`, `w_cont_pre * (1 - post)`, `w_cont_*`, `w_d`, `w_dt1`, `w_dt0`, times `X`. -/
inductive CV | wtPost | wtPre | wcPostY | wcPreY | wcPostPost | wcPre1mp | wcPost | wcPre | wd | wdt1 | wdt0

def vRow (m : Method) (level : K) (ps : (κ → K) → K) (β : Arm → κ → K) (v : CV) (r : CRow κ K) : K :=
  match v with
  | .wtPost => wRow level ps .tpost r * dnum r.post
  | .wtPre => wRow level ps .tpre r * (1 - dnum r.post)
  | .wcPostY => wRow level ps .cpost r * (r.y - outCont m β r)
  | .wcPreY => wRow level ps .cpre r * (r.y - outCont m β r)
  | .wcPostPost => wRow level ps .cpost r * dnum r.post
  | .wcPre1mp => wRow level ps .cpre r * (1 - dnum r.post)
  | .wcPost => wRow level ps .cpost r
  | .wcPre => wRow level ps .cpre r
  | .wd => wRow level ps .d r
  | .wdt1 => wRow level ps .dt1 r
  | .wdt0 => wRow level ps .dt0 r

/-- Matrix keys. -/
inductive CM | gram (a : Arm) | info

/-- `_partition_did_rc_global_stats`, `dr`/`ipw` path, `_did_partition.py:405-438,474-556`. -/
def partStatsRC (m : Method) (level : K) (ps : (κ → K) → K) (β : Arm → κ → K) (p : List (CRow κ K)) :
    Option (Stats (W ⊕ E) CV CM κ K) :=
  if p = [] then none else some
    (fun s => match s with
      | .inl k => (p.map (wRow level ps k)).sum
      | .inr e => (p.map fun r => wRow level ps (wOf e) r * resRow m β e r).sum,
     fun v k => (p.map fun r => vRow m level ps β v r * r.x k).sum,
     fun q a b => match q with
      | .gram c => ((p.filter (armMask c)).map fun r => (r.x a * r.w) * r.x b).sum
      | .info => (p.map fun r => (r.x a * (r.w * ps r.x * (1 - ps r.x))) * r.x b).sum,
     p.length)

/-- Global quantities and precomputed correction vectors, `spark/_did_streaming.py:384-428`,
`_did_partition.py:559-658`. -/
structure GlobalRC (κ K : Type*) where
  mw : W → K
  att : E → K
  drAtt : K
  treatPost : κ → K
  treatPre : κ → K
  contPost : κ → K
  contPre : κ → K
  effPostT : κ → K
  effPostC : κ → K
  effPreT : κ → K
  effPreC : κ → K
  psCorr : κ → K

/-- `e if c > 0 else zeros`. -/
def posOr (c : K) (e : K) : K := if c > 0 then e else 0

/-- `streaming_did_rc_cell_single_control` after the reduction, `spark/_did_streaming.py:355-428`, and
`_precompute_did_rc_corrections`, `_did_partition.py:559-658`. -/
def finalizeRC (m : Method) (inv : (κ → κ → K) → κ → κ → K) (agg : Option (Stats (W ⊕ E) CV CM κ K)) :
    Option (GlobalRC κ K) :=
  agg.bind fun g =>
    let n : K := (g.2.2.2 : ℕ)
    if g.2.2.2 = 0 then none else
    let mw := fun k => g.1 (.inl k) / n
    let att := fun e => posOr (mw (wOf e)) ((g.1 (.inr e) / n) / mw (wOf e))
    let M := fun c : Arm => inv fun a b => g.2.2.1 (.gram c) a b / n
    let H := fun a b => inv (g.2.2.1 .info) a b * n
    let orV := fun (c : Arm) (v : κ → K) => if m = .ipw then fun _ : κ => (0 : K) else mulV (M c) v
    let momPost := fun k => if mw .d > 0 ∧ mw .dt1 > 0 ∧ mw .dt0 > 0 then
      (g.2.1 .wd k / n) / mw .d - (g.2.1 .wdt1 k / n) / mw .dt1 else 0
    let momPre := fun k => if mw .d > 0 ∧ mw .dt1 > 0 ∧ mw .dt0 > 0 then
      (g.2.1 .wd k / n) / mw .d - (g.2.1 .wdt0 k / n) / mw .dt0 else 0
    let cmPost := fun k => posOr (mw .cpost) ((g.2.1 .wcPostY k / n - att .cpost * g.2.1 .wcPost k / n) / mw .cpost)
    let cmPre := fun k => posOr (mw .cpre) ((g.2.1 .wcPreY k / n - att .cpre * g.2.1 .wcPre k / n) / mw .cpre)
    some {
      mw := mw
      att := att
      drAtt := (att .tpost - att .tpre) - (att .cpost - att .cpre) + (att .dpost - att .dt1post)
        - (att .dpre - att .dt0pre)
      treatPost := orV .cpost fun k => posOr (mw .tpost) (-(g.2.1 .wtPost k / n) / mw .tpost)
      treatPre := orV .cpre fun k => posOr (mw .tpre) (-(g.2.1 .wtPre k / n) / mw .tpre)
      contPost := orV .cpost fun k => posOr (mw .cpost) (-(g.2.1 .wcPostPost k / n) / mw .cpost)
      contPre := orV .cpre fun k => posOr (mw .cpre) (-(g.2.1 .wcPre1mp k / n) / mw .cpre)
      effPostT := orV .tpost momPost
      effPostC := orV .cpost momPost
      effPreT := orV .tpre momPre
      effPreC := orV .cpre momPre
      psCorr := mulV H fun k => cmPost k - cmPre k }

/-- Centred component of the influence function, `_did_partition.py:812-843,866-875,901-906`. -/
def leadRow (m : Method) (level : K) (ps : (κ → K) → K) (β : Arm → κ → K) (g : GlobalRC κ K) (e : E) (r : CRow κ K) : K :=
  posOr (g.mw (wOf e)) (wRow level ps (wOf e) r * resRow m β e r / g.mw (wOf e)
    - wRow level ps (wOf e) r * g.att e / g.mw (wOf e))

/-- `(w * (y - out)) X @ v` on the rows of one arm, zero elsewhere, e.g. `_did_partition.py:851-860,919-932`. -/
def armTerm (m : Method) (β : Arm → κ → K) (a : Arm) (v : κ → K) (r : CRow κ K) : K :=
  if m = .ipw then 0 else if armMask a r then ∑ k, (r.w * (r.y - outC m β a r)) * r.x k * v k else 0

/-- `_partition_compute_did_rc_if`, one row, `_did_partition.py:744-940` (`dr` and `ipw`). -/
def rowIFRC (m : Method) (level : K) (ps : (κ → K) → K) (β : Arm → κ → K) (g : GlobalRC κ K) (r : CRow κ K) : K :=
  let L := fun e => leadRow m level ps β g e r
  let infTreat := L .tpost - L .tpre + (armTerm m β .cpost g.treatPost r + armTerm m β .cpre g.treatPre r)
  let infPs := ∑ k, (r.w * (dnum r.d - ps r.x)) * r.x k * g.psCorr k
  let infCont := L .cpost - L .cpre + infPs + (armTerm m β .cpost g.contPost r + armTerm m β .cpre g.contPre r)
  let infEff := (L .dpost - L .dt1post) - (L .dpre - L .dt0pre)
  let infOrPost := armTerm m β .tpost g.effPostT r - armTerm m β .cpost g.effPostC r
  let infOrPre := armTerm m β .tpre g.effPreT r - armTerm m β .cpre g.effPreC r
  (infTreat - infCont) + infEff + (infOrPost - infOrPre)

/-- One repeated cross-section cell (`dr`, `ipw`), `spark/_did_streaming.py:341-475`, before scaling. -/
def cellDistRC (m : Method) (inv : (κ → κ → K) → κ → κ → K) (level : K) (ps : (κ → K) → K) (β : Arm → κ → K)
    (parts : List (List (CRow κ K))) : Option (K × List K) :=
  (finalizeRC m inv ((parts.map (partStatsRC m level ps β)).foldl optAdd none)).map fun g =>
    (g.drAtt, parts.flatMap fun p => p.map (rowIFRC m level ps β g))

/-! ### Outcome regression -/

/-- Scalar keys of the `reg` path, `_did_partition.py:451-459`. -/
inductive RS | wTpre | wTpost | wD | rTpre | rTpost | rC

/-- Fitted change `out_y_cont_post - out_y_cont_pre`. -/
def dOut (β : Arm → κ → K) (r : CRow κ K) : K := eta r.x (β .cpost) - eta r.x (β .cpre)

/-- `_partition_did_rc_global_stats`, `reg` path, `_did_partition.py:442-472`. -/
def partStatsReg (β : Arm → κ → K) (p : List (CRow κ K)) : Option (Stats RS Unit Arm κ K) :=
  if p = [] then none else some
    (fun s => match s with
      | .wTpre => (p.map fun r => r.w * dnum r.d * (1 - dnum r.post)).sum
      | .wTpost => (p.map fun r => r.w * dnum r.d * dnum r.post).sum
      | .wD => (p.map fun r => r.w * dnum r.d).sum
      | .rTpre => (p.map fun r => r.w * dnum r.d * (1 - dnum r.post) * r.y).sum
      | .rTpost => (p.map fun r => r.w * dnum r.d * dnum r.post * r.y).sum
      | .rC => (p.map fun r => r.w * dnum r.d * dOut β r).sum,
     fun _ k => (p.map fun r => r.w * dnum r.d * r.x k).sum,
     fun c a b => ((p.filter (armMask c)).map fun r => (r.x a * r.w) * r.x b).sum,
     p.length)

/-- Global quantities, `spark/_did_streaming.py:360-382`, `_did_partition.py:661-675`. -/
structure GlobalReg (κ K : Type*) where
  mTpre : K
  mTpost : K
  mD : K
  eTpre : K
  eTpost : K
  eC : K
  att : K
  vPost : κ → K
  vPre : κ → K

def finalizeReg (inv : (κ → κ → K) → κ → κ → K) (agg : Option (Stats RS Unit Arm κ K)) : Option (GlobalReg κ K) :=
  agg.bind fun g =>
    let n : K := (g.2.2.2 : ℕ)
    if g.2.2.2 = 0 then none else
    let mTpre := g.1 .wTpre / n
    let mTpost := g.1 .wTpost / n
    let mD := g.1 .wD / n
    let eTpre := posOr mTpre ((g.1 .rTpre / n) / mTpre)
    let eTpost := posOr mTpost ((g.1 .rTpost / n) / mTpost)
    let eC := posOr mD ((g.1 .rC / n) / mD)
    some {
      mTpre := mTpre, mTpost := mTpost, mD := mD, eTpre := eTpre, eTpost := eTpost, eC := eC
      att := (eTpost - eTpre) - eC
      vPost := mulV (inv fun a b => g.2.2.1 .cpost a b / n) fun k => g.2.1 () k / n
      vPre := mulV (inv fun a b => g.2.2.1 .cpre a b / n) fun k => g.2.1 () k / n }

/-- `_partition_compute_did_rc_reg_if`, one row, `_did_partition.py:678-741`. -/
def rowIFReg (β : Arm → κ → K) (g : GlobalReg κ K) (r : CRow κ K) : K :=
  let infPre := posOr g.mTpre ((r.w * dnum r.d * (1 - dnum r.post) * r.y - r.w * dnum r.d * (1 - dnum r.post) * g.eTpre) / g.mTpre)
  let infPost := posOr g.mTpost ((r.w * dnum r.d * dnum r.post * r.y - r.w * dnum r.d * dnum r.post * g.eTpost) / g.mTpost)
  let infC1 := r.w * dnum r.d * dOut β r - r.w * dnum r.d * g.eC
  let infControl := posOr g.mD ((infC1 + armTerm .reg β .cpost g.vPost r - armTerm .reg β .cpre g.vPre r) / g.mD)
  (infPost - infPre) - infControl

/-- One repeated cross-section cell, `reg`. -/
def cellDistReg (inv : (κ → κ → K) → κ → κ → K) (β : Arm → κ → K) (parts : List (List (CRow κ K))) : Option (K × List K) :=
  (finalizeReg inv ((parts.map (partStatsReg β)).foldl optAdd none)).map fun g =>
    (g.att, parts.flatMap fun p => p.map (rowIFReg β g))

end Verif.Dist
