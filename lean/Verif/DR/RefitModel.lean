import Verif.DR.Model

/-!
# Two-period estimators: one replication of the weighted bootstrap

`drdid/bootstrap/boot_panel.py`, `boot_rc.py`, `boot_rc_ipt.py`, `boot_ipw_rc.py`, `boot_reg_rc.py`, `boot_std_ipw_rc.py`
and the helpers `drdid/propensity/aipw_estimators.py`, `ipw_estimators.py`.  Every routine multiplies the (already
normalised) unit weights by a draw `v` and recomputes an estimator.  One replication is a function of `v`; `none` is NaN.
The fits are the same oracles as in `Verif.DR.Model`.  Simplification: the replications the code turns into NaN because a
fit raised an exception are not modelled (the oracles are total), nor are the non-finite intermediate values.
-/

namespace Verif.DR

variable {ι κ K : Type*} [Fintype ι] [Fintype κ] [Field K]

/-- `b_weights = i_weights * v`, `boot_panel.py:61,162,252,350,444`, `boot_rc.py:62,159`, `boot_rc_ipt.py:58,170`. -/
def drawW (w v : ι → K) (i : ι) : K := w i * v i

/-- `b_weights_trimmed[~trim_ps_mask] = 0`, `boot_panel.py:76-77,177-178,365-366`, `boot_rc.py:93-94`,
`boot_std_ipw_rc.py:105-106`. -/
def cutW (tr : ι → Bool) (b : ι → K) (i : ι) : K := if tr i then b i else 0

/-- `a / s`, NaN when the sum of weights is zero, `utils.py:128-142` (`_weighted_sum`), `aipw_estimators.py:101-116`. -/
def wsum [DecidableEq K] (w v : ι → K) : Option K :=
  if ∑ i, w i = 0 then none else some ((∑ i, w i * v i) / ∑ i, w i)

/-- `i_weights / mean_i_weights` unless the mean is zero, `aipw_estimators.py:77-85,192-200,336-344`. -/
def renorm [DecidableEq K] (w : ι → K) (i : ι) : K := if mean w = 0 then w i else w i / mean w

/-- `aipw_1 - aipw_0` with NaN propagation. -/
def sub? (a b : Option K) : Option K := a.bind fun a => b.map fun b => a - b

/-- `aipw_did_panel` (no `trim_ps`), `aipw_estimators.py:77-119`. -/
def aipwPanel [DecidableEq K] (d : ι → Bool) (ps out dy w : ι → K) : Option K :=
  let u := renorm w
  sub? (wsum (fun i => u i * ind d i) (fun i => dy i - out i))
    (wsum (fun i => u i * (1 - ind d i) * ps i / (1 - ps i)) (fun i => dy i - out i))

/-- `aipw_did_rc_imp1`, `aipw_estimators.py:192-231`. -/
def aipwRC1 [DecidableEq K] (d post : ι → Bool) (ps out y w : ι → K) : Option K :=
  let u := renorm w
  let r := fun i => y i - out i
  sub?
    (sub? (wsum (fun i => u i * ind d i * postK post i) r) (wsum (fun i => u i * ind d i * (1 - postK post i)) r))
    (sub? (wsum (fun i => u i * ps i * (1 - ind d i) * postK post i / (1 - ps i)) r)
      (wsum (fun i => u i * ps i * (1 - ind d i) * (1 - postK post i) / (1 - ps i)) r))

/-- `aipw_did_rc_imp2`, `aipw_estimators.py:336-406`. -/
def aipwRC2 [DecidableEq K] (d post : ι → Bool) (ps oT1 oT0 oC1 oC0 y w : ι → K) : Option K :=
  let u := renorm w
  let wt0 := fun i => u i * ind d i * (1 - postK post i)
  let wt1 := fun i => u i * ind d i * postK post i
  let wc0 := fun i => u i * ps i * (1 - ind d i) * (1 - postK post i) / (1 - ps i)
  let wc1 := fun i => u i * ps i * (1 - ind d i) * postK post i / (1 - ps i)
  let wd := fun i => u i * ind d i
  let main := sub? (sub? (wsum wt1 (fun i => y i - oC1 i)) (wsum wt0 (fun i => y i - oC0 i)))
    (sub? (wsum wc1 (fun i => y i - oC1 i)) (wsum wc0 (fun i => y i - oC0 i)))
  let e1 := sub? (wsum wd (fun i => oT1 i - oC1 i)) (wsum wt1 (fun i => oT1 i - oC1 i))
  let e0 := sub? (wsum wd (fun i => oT0 i - oC0 i)) (wsum wt0 (fun i => oT0 i - oC0 i))
  main.bind fun m => (sub? e1 e0).map fun e => m + e

/-- `ipw_rc`, `ipw_estimators.py:81-113`. -/
def ipwRcVal [DecidableEq K] (d tr post : ι → Bool) (ps y w : ι → K) : Option K :=
  let lam := mean (fun i => w i * ind tr i * postK post i)
  if lam = 0 ∨ lam = 1 then none else
  let den := mean (fun i => w i * ind d i)
  if den = 0 then none else
  some (mean (fun i => w i * ind tr i * (ind d i - ps i * (1 - ind d i) / (1 - ps i)) *
    ((postK post i - lam) / (lam * (1 - lam))) * y i) / den)

section Ordered
variable [LinearOrder K]

/-- `ipw_did_panel` point estimate, `ipw_did_panel.py:104-127,187-212,259-267` (trimming as in lines 110-111). -/
def ipwDidPanel (logit : Logit ι κ K) (lo hi level : K) (y1 y0 : ι → K) (d : ι → Bool) (x : ι → κ → K) (w0 : ι → K) :
    Except EstErr (Option K) :=
  if ∃ i, w0 i < 0 then .error .negWeights else
  let w := normalize w0
  let dy := fun i => y1 i - y0 i
  if ¬ ∃ i, d i = true then .error .noTreated else
  if ¬ ∃ i, d i = false then .error .noControls else
  let ps := clip lo hi (logit w d x)
  let tr := trim level d ps
  let m := mean (fun i => w i * ind d i)
  if m = 0 then .ok none else
  .ok (some (mean (fun i => wTreat d tr w i * dy i) / m - mean (fun i => wCont d tr ps w i * dy i) / m))

/-- `ipw_did_rc` point estimate, `ipw_did_rc.py:103-128,190-216,259-302`. -/
def ipwDidRC (logit : Logit ι κ K) (lo hi level : K) (y : ι → K) (post d : ι → Bool) (x : ι → κ → K) (w0 : ι → K) :
    Option K :=
  if rcChecks d post w0 then
    let w := normalize w0
    let ps := clip lo hi (logit w d x)
    let tr := trim level d ps
    let pi := mean (fun i => w i * ind d i)
    let lam := mean (fun i => w i * postK post i)
    let lam' := mean (fun i => w i * (1 - postK post i))
    if pi = 0 then none else
    if lam = 0 ∨ lam = 1 then none else
    some ((mean (fun i => w i * ind d i * postK post i * y i / (pi * lam)) -
        mean (fun i => w i * ind d i * (1 - postK post i) * y i / (pi * lam'))) -
      (mean (fun i => ind tr i * w i * ps i * (1 - ind d i) * postK post i / (1 - ps i) * y i / (pi * lam)) -
        mean (fun i => ind tr i * w i * ps i * (1 - ind d i) * (1 - postK post i) / (1 - ps i) * y i / (pi * lam'))))
  else none

/-- `drdid_imp_rc` point estimate, `drdid_imp_rc.py:123-140,207-232,234-300`: tilted scores, odds-weighted
comparison-group regressions on all comparison observations.  Simplification as in `regDidRC`: empty arms give `none`. -/
def drdidImpRC (ols : OLS ι κ K) (ipt : Logit ι κ K) (lo hi level : K) (y : ι → K) (post d : ι → Bool)
    (x : ι → κ → K) (w0 : ι → K) : Option K :=
  if rcChecks d post w0 then
    let w := normalize w0
    let ps := clip lo hi (ipt w d x)
    let tr := trim level d ps
    let out := fun pre => fitted x (ols (fun i => w i * (ps i / (1 - ps i))) (cellSel d post pre false) x y)
    some (tradRC d tr post ps (out true) (out false) y w)
  else none

/-- `drdid_imp_local_rc` point estimate, `drdid_imp_local_rc.py:139-166,233-335`. -/
def drdidImpLocalRC (ols : OLS ι κ K) (ipt : Logit ι κ K) (lo hi level : K) (y : ι → K) (post d : ι → Bool)
    (x : ι → κ → K) (w0 : ι → K) : Option K :=
  if rcChecks d post w0 then
    let w := normalize w0
    let ps := clip lo hi (ipt w d x)
    let tr := trim level d ps
    let outC := fun pre => fitted x (ols (fun i => w i * (ps i / (1 - ps i))) (cellSel d post pre false) x y)
    let outT := fun pre => fitted x (ols w (cellSel d post pre true) x y)
    some (drRC d tr post ps (outC true) (outC false) (outT true) (outT false) y w)
  else none

/-! ## Replications, panel -/

/-- `wboot_ipw_panel`, one replication, `boot_panel.py:161-191`. -/
def wbootIpwPanel (logit : Logit ι κ K) (lo hi level : K) (dy : ι → K) (d : ι → Bool) (x : ι → κ → K) (w v : ι → K) :
    Option K :=
  let b := drawW w v
  let ps := clip lo hi (logit b d x)
  let tr := trim level d ps
  let bt := cutW tr b
  let den := ∑ i, bt i * ind d i
  if den = 0 then none else
  some ((∑ i, bt i * ind tr i * (ind d i - ps i * (1 - ind d i) / (1 - ps i)) * dy i) / den)

/-- `wboot_std_ipw_panel`, one replication, `boot_panel.py:251-288`. -/
def wbootStdIpwPanel (logit : Logit ι κ K) (lo hi level : K) (dy : ι → K) (d : ι → Bool) (x : ι → κ → K) (w v : ι → K) :
    Option K :=
  let b := drawW w v
  let ps := clip lo hi (logit b d x)
  let tr := trim level d ps
  let wt := fun i => ind tr i * b i * ind d i
  let wc := fun i => ind tr i * b i * (1 - ind d i) * ps i / (1 - ps i)
  if mean wt = 0 then none else
  if mean wc = 0 then none else
  some (mean (fun i => wt i * dy i) / mean wt - mean (fun i => wc i * dy i) / mean wc)

/-- `wboot_reg_panel`, one replication, `boot_panel.py:443-491`. -/
def wbootRegPanel (ols : OLS ι κ K) (dy : ι → K) (d : ι → Bool) (x : ι → κ → K) (w v : ι → K) : Option K :=
  let b := drawW w v
  if (Finset.univ.filter (fun i => d i = false)).card < Fintype.card κ then none else
  let out := fitted x (ols b (notB d) x dy)
  if mean (fun i => b i * ind d i) = 0 then none else
  some (mean (fun i => b i * ind d i * (dy i - out i)) / mean (fun i => b i * ind d i))

/-- `wboot_dr_tr_panel`, one replication, `boot_panel.py:349-385`: the outcome regression is `wols_panel`, weighted by the
odds `ps / (1 - ps)` (`wols.py:175-176`). -/
def wbootDrPanel (ols : OLS ι κ K) (logit : Logit ι κ K) (lo hi level : K) (dy : ι → K) (d : ι → Bool) (x : ι → κ → K)
    (w v : ι → K) : Option K :=
  let b := drawW w v
  let ps := clip lo hi (logit b d x)
  let tr := trim level d ps
  let out := fitted x (ols (fun i => b i * (ps i / (1 - ps i))) (notB d) x dy)
  aipwPanel d ps out dy (cutW tr b)

/-- `wboot_drdid_imp_panel`, one replication, `boot_panel.py:60-96`. -/
def wbootImpPanel (ols : OLS ι κ K) (ipt : Logit ι κ K) (lo hi level : K) (dy : ι → K) (d : ι → Bool) (x : ι → κ → K)
    (w v : ι → K) : Option K :=
  let b := drawW w v
  let ps := clip lo hi (ipt b d x)
  let tr := trim level d ps
  let out := fitted x (ols (fun i => b i * (ps i / (1 - ps i))) (notB d) x dy)
  aipwPanel d ps out dy (cutW tr b)

/-! ## Replications, repeated cross-sections -/

/-- `wboot_std_ipw_rc`, one replication, `boot_std_ipw_rc.py:76-133`. -/
def wbootStdIpwRC (logit : Logit ι κ K) (lo hi level : K) (y : ι → K) (post d : ι → Bool) (x : ι → κ → K) (w v : ι → K) :
    Option K :=
  let b := drawW w v
  let ps := clip lo hi (logit b d x)
  let tr := trim level d ps
  let bt := cutW tr b
  let wt0 := fun i => bt i * ind d i * (1 - postK post i)
  let wt1 := fun i => bt i * ind d i * postK post i
  let wc0 := cutW tr (fun i => bt i * ps i * (1 - ind d i) * (1 - postK post i) / (1 - ps i))
  let wc1 := cutW tr (fun i => bt i * ps i * (1 - ind d i) * postK post i / (1 - ps i))
  sub? (sub? (wsum wt1 y) (wsum wt0 y)) (sub? (wsum wc1 y) (wsum wc0 y))

/-- `wboot_reg_rc`, one replication, `boot_reg_rc.py:65-166`. -/
def wbootRegRC (ols : OLS ι κ K) (y : ι → K) (post d : ι → Bool) (x : ι → κ → K) (w v : ι → K) : Option K :=
  let b := drawW w v
  let nC := fun pre => (Finset.univ.filter (fun i => cellSel d post pre false i = true)).card
  if nC true < Fintype.card κ then none else
  if nC false < Fintype.card κ then none else
  let out := fun pre => fitted x (ols b (cellSel d post pre false) x y)
  sub? (sub? (wsum (fun i => b i * ind d i * postK post i) y) (wsum (fun i => b i * ind d i * (1 - postK post i)) y))
    (wsum (fun i => b i * ind d i) (fun i => out false i - out true i))

/-- `wboot_ipw_rc`, one replication, `boot_ipw_rc.py:60-96`: the draws are not renormalised. -/
def wbootIpwRC (logit : Logit ι κ K) (lo hi level : K) (y : ι → K) (post d : ι → Bool) (x : ι → κ → K) (w v : ι → K) :
    Option K :=
  let b := drawW w v
  let ps := clip lo hi (logit b d x)
  ipwRcVal d (trim level d ps) post ps y b

/-- `wols_rc` weights: odds for comparison observations, plain for treated ones, `wols.py:307-311`. -/
def wolsW (ps b : ι → K) (treat : Bool) (i : ι) : K := if treat then b i else b i * (ps i / (1 - ps i))

/-- `wboot_drdid_rc1`, one replication, `boot_rc.py:61-105`: odds-weighted regressions with untrimmed weights. -/
def wbootRC1 (ols : OLS ι κ K) (logit : Logit ι κ K) (lo hi level : K) (y : ι → K) (post d : ι → Bool) (x : ι → κ → K)
    (w v : ι → K) : Option K :=
  let b := drawW w v
  let ps := clip lo hi (logit b d x)
  let out := fun pre => fitted x (ols (wolsW ps b false) (cellSel d post pre false) x y)
  aipwRC1 d post ps (fun i => postK post i * out false i + (1 - postK post i) * out true i) y
    (cutW (trim level d ps) b)

/-- `wboot_drdid_rc2`, one replication, `boot_rc.py:158-209`. -/
def wbootRC2 (ols : OLS ι κ K) (logit : Logit ι κ K) (lo hi level : K) (y : ι → K) (post d : ι → Bool) (x : ι → κ → K)
    (w v : ι → K) : Option K :=
  let b := drawW w v
  let ps := clip lo hi (logit b d x)
  let out := fun pre treat => fitted x (ols (wolsW ps b treat) (cellSel d post pre treat) x y)
  aipwRC2 d post ps (out false true) (out true true) (out false false) (out true false) y (cutW (trim level d ps) b)

/-- `wboot_drdid_ipt_rc1`, one replication, `boot_rc_ipt.py:57-103`: the regressions use the *trimmed* weights. -/
def wbootIptRC1 (ols : OLS ι κ K) (ipt : Logit ι κ K) (lo hi level : K) (y : ι → K) (post d : ι → Bool) (x : ι → κ → K)
    (w v : ι → K) : Option K :=
  let b := drawW w v
  let ps := clip lo hi (ipt b d x)
  let bt := cutW (trim level d ps) b
  let out := fun pre => fitted x (ols (wolsW ps bt false) (cellSel d post pre false) x y)
  aipwRC1 d post ps (fun i => postK post i * out false i + (1 - postK post i) * out true i) y bt

/-- `wboot_drdid_ipt_rc2`, one replication, `boot_rc_ipt.py:169-224`. -/
def wbootIptRC2 (ols : OLS ι κ K) (ipt : Logit ι κ K) (lo hi level : K) (y : ι → K) (post d : ι → Bool) (x : ι → κ → K)
    (w v : ι → K) : Option K :=
  let b := drawW w v
  let ps := clip lo hi (ipt b d x)
  let bt := cutW (trim level d ps) b
  let out := fun pre treat => fitted x (ols (wolsW ps bt treat) (cellSel d post pre treat) x y)
  aipwRC2 d post ps (out false true) (out true true) (out false false) (out true false) y bt

end Ordered

end Verif.DR
