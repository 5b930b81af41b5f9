import Mathlib.Algebra.BigOperators.Field
import Mathlib.Algebra.BigOperators.Ring.Finset
import Mathlib.Algebra.Order.Field.Basic
import Mathlib.Data.Fintype.BigOperators
import Mathlib.Data.Fintype.Card

/-!
# Two-period estimators: executable model

Models the point estimates and influence functions of `moderndid/drdid/estimators/{drdid_panel, reg_did_panel,
std_ipw_did_panel, drdid_imp_panel, drdid_rc, drdid_trad_rc, reg_did_rc, std_ipw_did_rc}.py` over an arbitrary ordered
field.  Units are the elements of a finite type `ι`, covariates are indexed by `κ`.  The numerical fits (statsmodels
GLM/WLS, matrix inverses) are not executed: fitted values enter as arguments, and theorems state explicitly which
first-order conditions of the fit they use.
-/

namespace Verif.DR

variable {ι κ K : Type*} [Fintype ι] [Fintype κ] [Field K]

/-- `np.mean`. -/
def mean (f : ι → K) : K := (∑ i, f i) / (Fintype.card ι : K)

/-- Indicator of a 0/1 array as numbers. -/
def ind (b : ι → Bool) (i : ι) : K := if b i then 1 else 0

/-- `i_weights / np.mean(i_weights)`, `drdid_panel.py:226`, `reg_did_panel.py:273`, `std_ipw_did_panel.py:223`. -/
def normalize (w : ι → K) (i : ι) : K := w i / mean w

/-- `x @ beta`. -/
def fitted (x : ι → κ → K) (β : κ → K) (i : ι) : K := ∑ k, x i k * β k

/-- Trimming indicator, `drdid_panel.py:113-114`, `std_ipw_did_panel.py:109-110`, `drdid_rc.py:114-115`: treated
observations always stay, comparison observations stay iff their score is below the trim level. -/
def trim [LT K] [DecidableLT K] (level : K) (d : ι → Bool) (ps : ι → K) (i : ι) : Bool :=
  if d i then true else decide (ps i < level)

/-! ## Panel -/

/-- `w_treat`, `drdid_panel.py:281`, `std_ipw_did_panel.py:279`. -/
def wTreat (d tr : ι → Bool) (w : ι → K) (i : ι) : K := ind tr i * w i * ind d i

/-- `w_cont`, `drdid_panel.py:282`, `std_ipw_did_panel.py:280`. -/
def wCont (d tr : ι → Bool) (ps w : ι → K) (i : ι) : K :=
  ind tr i * w i * ps i * (1 - ind d i) / (1 - ps i)

/-- Ratio of means `mean(w * v) / mean(w)`. -/
def wmean (w v : ι → K) : K := mean (fun i => w i * v i) / mean w

/-- `drdid_panel` point estimate, `drdid_panel.py:119-135`. -/
def drPanel (d tr : ι → Bool) (ps out dy w : ι → K) : K :=
  wmean (wTreat d tr w) (fun i => dy i - out i) - wmean (wCont d tr ps w) (fun i => dy i - out i)

/-- `reg_did_panel` point estimate, `reg_did_panel.py:120-152` (both weights are `i_weights * d`, lines 330-331). -/
def regPanel (d : ι → Bool) (out dy w : ι → K) : K :=
  wmean (fun i => w i * ind d i) dy - wmean (fun i => w i * ind d i) out

/-- `std_ipw_did_panel` point estimate, `std_ipw_did_panel.py:111-134`. -/
def ipwPanel (d tr : ι → Bool) (ps dy w : ι → K) : K :=
  mean (fun i => wTreat d tr w i * dy i / mean (wTreat d tr w)) -
    mean (fun i => wCont d tr ps w i * dy i / mean (wCont d tr ps w))

/-- `drdid_imp_panel` point estimate, `drdid_imp_panel.py:134-135`. -/
def impPanel (d tr : ι → Bool) (ps out dy w : ι → K) : K :=
  mean (fun i => w i * (ind tr i * (1 - (1 - ind d i) / (1 - ps i)) * (dy i - out i))) /
    mean (fun i => ind d i * w i)

/-! ### Influence functions -/

/-- `asy_lin_rep_wols`: rows of `(w (1-d) (dy - out)) x` times a matrix (the inverse of the Gram matrix),
`drdid_panel.py:295-306`, `reg_did_panel.py:342-351`. `sel` is the indicator of the estimation sample. -/
def alrOLS (sel w res : ι → K) (x : ι → κ → K) (M : κ → κ → K) (i : ι) (k : κ) : K :=
  ∑ l, (w i * sel i * res i) * x i l * M l k

/-- `asy_lin_rep_ps`: rows of `(w (d - ps)) x` times a matrix (the scaled inverse Hessian),
`drdid_panel.py:309-311`, `std_ipw_did_panel.py:291-299`. -/
def alrPS (d : ι → Bool) (ps w : ι → K) (x : ι → κ → K) (H : κ → κ → K) (i : ι) (k : κ) : K :=
  ∑ l, (w i * (ind d i - ps i)) * x i l * H l k

/-- `vector-matrix` product of one row. -/
def dot (a b : κ → K) : K := ∑ k, a k * b k

/-- Influence function of `drdid_panel`, `drdid_panel.py:319-345`. -/
def drPanelIF (d tr : ι → Bool) (ps out dy w : ι → K) (x : ι → κ → K) (M H : κ → κ → K) (i : ι) : K :=
  let wt := wTreat d tr w
  let wc := wCont d tr ps w
  let res := fun i => dy i - out i
  let etaT := wmean wt res
  let etaC := wmean wc res
  let ols := alrOLS (fun i => 1 - ind d i) w res x M
  let psl := alrPS d ps w x H
  let treatDeriv := fun k => mean (fun i => wt i * x i k)
  let infTreat := ((wt i * res i - wt i * etaT) - dot (ols i) treatDeriv) / mean wt
  let psDeriv := fun k => mean (fun i => (wc i * res i - wc i * etaC) * x i k)
  let olsDeriv := fun k => mean (fun i => wc i * x i k)
  let infCont := ((wc i * res i - wc i * etaC) + dot (psl i) psDeriv - dot (ols i) olsDeriv) / mean wc
  infTreat - infCont

/-- Influence function of `reg_did_panel`, `reg_did_panel.py:358-393`. -/
def regPanelIF (d : ι → Bool) (out dy w : ι → K) (x : ι → κ → K) (M : κ → κ → K) (i : ι) : K :=
  let wt := fun i => w i * ind d i
  let etaT := wmean wt dy
  let etaC := wmean wt out
  let ols := alrOLS (fun i => 1 - ind d i) w (fun i => dy i - out i) x M
  let infTreat := (wt i * dy i - wt i * etaT) / mean wt
  let deriv := fun k => mean (fun i => wt i * x i k)
  let infCont := ((wt i * out i - wt i * etaC) + dot (ols i) deriv) / mean wt
  infTreat - infCont

/-- Influence function of `std_ipw_did_panel`, `std_ipw_did_panel.py:306-341`. -/
def ipwPanelIF (d tr : ι → Bool) (ps dy w : ι → K) (x : ι → κ → K) (H : κ → κ → K) (i : ι) : K :=
  let wt := wTreat d tr w
  let wc := wCont d tr ps w
  let etaT := fun i => wt i * dy i / mean wt
  let etaC := fun i => wc i * dy i / mean wc
  let attT := mean etaT
  let attC := mean etaC
  let infTreat := etaT i - wt i * attT / mean wt
  let infCont := etaC i - wc i * attC / mean wc
  let mom := fun k => mean (fun i => (wc i * (dy i - attC)) * x i k) / mean wc
  infTreat - (infCont + dot (alrPS d ps w x H i) mom)

/-- Influence function of `drdid_imp_panel`, `drdid_imp_panel.py:137-138`. -/
def impPanelIF (d tr : ι → Bool) (ps out dy w : ι → K) (i : ι) : K :=
  let summand := ind tr i * (1 - (1 - ind d i) / (1 - ps i)) * (dy i - out i)
  w i * ind tr i * (summand - ind d i * impPanel d tr ps out dy w) / mean (fun i => ind d i * w i)

/-! ## Repeated cross-sections -/

/-- `w_treat_pre/post`, `drdid_rc.py:285-286`, `std_ipw_did_rc.py`, `drdid_trad_rc.py:262-263`; `q` selects the period
(`1 - post` or `post`). -/
def wTreatRC (d tr : ι → Bool) (w q : ι → K) (i : ι) : K := ind tr i * w i * ind d i * q i

/-- `w_cont_pre/post`, `drdid_rc.py:289-290`, `drdid_trad_rc.py:264-265`. -/
def wContRC (d tr : ι → Bool) (ps w q : ι → K) (i : ι) : K :=
  ind tr i * w i * ps i * (1 - ind d i) * q i / (1 - ps i)

/-- `mean(w * v / mean(w))`, the form used for the RC components, `drdid_rc.py:323-343`. -/
def hmean (w v : ι → K) : K := mean (fun i => w i * v i / mean w)

/-- `post` and `1 - post` as numbers. -/
def postK (post : ι → Bool) : ι → K := ind post
def preK (post : ι → Bool) (i : ι) : K := 1 - ind post i

/-- `std_ipw_did_rc` point estimate, `std_ipw_did_rc.py:108-114,256-266`. -/
def ipwRC (d tr post : ι → Bool) (ps y w : ι → K) : K :=
  (hmean (wTreatRC d tr w (postK post)) y - hmean (wTreatRC d tr w (preK post)) y) -
    (hmean (wContRC d tr ps w (postK post)) y - hmean (wContRC d tr ps w (preK post)) y)

/-- `reg_did_rc` point estimate, `reg_did_rc.py:114-124,299-301`. -/
def regRC (d post : ι → Bool) (outPre outPost y w : ι → K) : K :=
  (wmean (fun i => w i * ind d i * postK post i) y - wmean (fun i => w i * ind d i * preK post i) y) -
    wmean (fun i => w i * ind d i) (fun i => outPost i - outPre i)

/-- `drdid_trad_rc` point estimate, `drdid_trad_rc.py:125-133`. -/
def tradRC (d tr post : ι → Bool) (ps outPre outPost y w : ι → K) : K :=
  let res := fun i => y i - (postK post i * outPost i + (1 - postK post i) * outPre i)
  (hmean (wTreatRC d tr w (postK post)) res - hmean (wTreatRC d tr w (preK post)) res) -
    (hmean (wContRC d tr ps w (postK post)) res - hmean (wContRC d tr ps w (preK post)) res)

/-- `drdid_rc` (locally efficient) point estimate, `drdid_rc.py:127-140,310-343`. `outC*`/`outT*` are the fitted
control-arm and treated-arm regressions. -/
def drRC (d tr post : ι → Bool) (ps outCPre outCPost outTPre outTPost y w : ι → K) : K :=
  let wd := fun i => ind tr i * w i * ind d i
  let wd1 := fun i => ind tr i * w i * ind d i * postK post i
  let wd0 := fun i => ind tr i * w i * ind d i * (1 - postK post i)
  tradRC d tr post ps outCPre outCPost y w
    + (hmean wd (fun i => outTPost i - outCPost i) - hmean wd1 (fun i => outTPost i - outCPost i))
    - (hmean wd (fun i => outTPre i - outCPre i) - hmean wd0 (fun i => outTPre i - outCPre i))

/-! ### Influence functions, repeated cross-sections -/

/-- Covariate mean `mean(w * q * x, axis=0) / mean(w)`, as in `drdid_rc.py:488-489,516-517`,
`drdid_trad_rc.py:378-379,407-408`. -/
def xmean (w q : ι → K) (x : ι → κ → K) (k : κ) : K := mean (fun i => w i * q i * x i k) / mean w

/-- Leading term `eta - w * att / mean(w)` of one component, `drdid_rc.py:483-484,500-501,528-531`. -/
def lead (w v : ι → K) (i : ι) : K := w i * v i / mean w - w i * hmean w v / mean w

/-- Influence function of `std_ipw_did_rc`, `std_ipw_did_rc.py:296-342`. -/
def ipwRCIF (d tr post : ι → Bool) (ps y w : ι → K) (x : ι → κ → K) (H : κ → κ → K) (i : ι) : K :=
  let wt0 := wTreatRC d tr w (preK post)
  let wt1 := wTreatRC d tr w (postK post)
  let wc0 := wContRC d tr ps w (preK post)
  let wc1 := wContRC d tr ps w (postK post)
  let m2 := fun wc : ι → K => fun k => mean (fun j => (wc j * (y j - hmean wc y)) * x j k) / mean wc
  let infCont := (lead wc1 y i - lead wc0 y i) + dot (alrPS d ps w x H i) (fun k => m2 wc1 k - m2 wc0 k)
  (lead wt1 y i - lead wt0 y i) - infCont

/-- Influence function of `reg_did_rc`, `reg_did_rc.py:346-387`. -/
def regRCIF (d post : ι → Bool) (outPre outPost y w : ι → K) (x : ι → κ → K) (Mpre Mpost : κ → κ → K) (i : ι) : K :=
  let wt0 := fun i => w i * ind d i * preK post i
  let wt1 := fun i => w i * ind d i * postK post i
  let wc := fun i => w i * ind d i
  let dout := fun i => outPost i - outPre i
  let alr0 := alrOLS (fun i => (1 - ind d i) * preK post i) w (fun i => y i - outPre i) x Mpre
  let alr1 := alrOLS (fun i => (1 - ind d i) * postK post i) w (fun i => y i - outPost i) x Mpost
  let infTreat := (wt1 i * y i - wt1 i * wmean wt1 y) / mean wt1 - (wt0 i * y i - wt0 i * wmean wt0 y) / mean wt0
  let deriv := fun k => mean (fun j => wc j * x j k)
  let infCont := ((wc i * dout i - wc i * wmean wc dout) + dot (alr1 i) deriv - dot (alr0 i) deriv) / mean wc
  infTreat - infCont

/-- Influence function of `drdid_trad_rc`, `drdid_trad_rc.py:348-421`. -/
def tradRCIF (d tr post : ι → Bool) (ps outPre outPost y w : ι → K) (x : ι → κ → K) (Mpre Mpost H : κ → κ → K)
    (i : ι) : K :=
  let wt0 := wTreatRC d tr w (preK post)
  let wt1 := wTreatRC d tr w (postK post)
  let wc0 := wContRC d tr ps w (preK post)
  let wc1 := wContRC d tr ps w (postK post)
  let res := fun i => y i - (postK post i * outPost i + (1 - postK post i) * outPre i)
  let alr0 := alrOLS (fun i => (1 - ind d i) * preK post i) w (fun i => y i - outPre i) x Mpre
  let alr1 := alrOLS (fun i => (1 - ind d i) * postK post i) w (fun i => y i - outPost i) x Mpost
  let infTreatOr := dot (alr1 i) (fun k => - xmean wt1 (postK post) x k) +
    dot (alr0 i) (fun k => - xmean wt0 (preK post) x k)
  let infTreat := lead wt1 res i - lead wt0 res i + infTreatOr
  let mps := fun wc : ι → K => fun k => mean (fun j => (wc j * (res j - hmean wc res)) * x j k) / mean wc
  let infContPs := dot (alrPS d ps w x H i) (fun k => mps wc1 k - mps wc0 k)
  let infContOr := dot (alr1 i) (fun k => - xmean wc1 (postK post) x k) +
    dot (alr0 i) (fun k => - xmean wc0 (preK post) x k)
  let infCont := lead wc1 res i - lead wc0 res i + infContPs + infContOr
  infTreat - infCont

/-- Influence function of `drdid_rc`, `drdid_rc.py:444-547`: the traditional part plus the adjustment terms
(lines 526-545). -/
def drRCIF (d tr post : ι → Bool) (ps outCPre outCPost outTPre outTPost y w : ι → K) (x : ι → κ → K)
    (Mpre Mpost MTpre MTpost H : κ → κ → K) (i : ι) : K :=
  let wd := fun i => ind tr i * w i * ind d i
  let wd1 := fun i => ind tr i * w i * ind d i * postK post i
  let wd0 := fun i => ind tr i * w i * ind d i * (1 - postK post i)
  let dpost := fun i => outTPost i - outCPost i
  let dpre := fun i => outTPre i - outCPre i
  let infEff := (lead wd dpost i - lead wd1 dpost i) - (lead wd dpre i - lead wd0 dpre i)
  let momPost := fun k => mean (fun j => (wd j / mean wd - wd1 j / mean wd1) * x j k)
  let momPre := fun k => mean (fun j => (wd j / mean wd - wd0 j / mean wd0) * x j k)
  let alr0 := alrOLS (fun i => (1 - ind d i) * preK post i) w (fun i => y i - outCPre i) x Mpre
  let alr1 := alrOLS (fun i => (1 - ind d i) * postK post i) w (fun i => y i - outCPost i) x Mpost
  let alrT0 := alrOLS (fun i => ind d i * preK post i) w (fun i => y i - outTPre i) x MTpre
  let alrT1 := alrOLS (fun i => ind d i * postK post i) w (fun i => y i - outTPost i) x MTpost
  let infOr := dot (fun k => alrT1 i k - alr1 i k) momPost - dot (fun k => alrT0 i k - alr0 i k) momPre
  tradRCIF d tr post ps outCPre outCPost y w x Mpre Mpost H i + infEff + infOr

/-! ## Whole estimators

The fits are oracles: `ols w sel x y` returns coefficients of the weighted regression of `y` on `x` among `sel`,
`logit w d x` returns raw propensity scores. -/

/-- Oracle for `ols_panel` / `sm.GLM(Gaussian)` / `ols_rc`, `wols.py:35-109,333-439`, `reg_did_panel.py:278-325`. -/
abbrev OLS (ι κ K : Type*) := (ι → K) → (ι → Bool) → (ι → κ → K) → (ι → K) → κ → K
/-- Oracle for `sm.GLM(Binomial).fit().predict`, `drdid_panel.py:256-268`. -/
abbrev Logit (ι κ K : Type*) := (ι → K) → (ι → Bool) → (ι → κ → K) → ι → K

inductive EstErr | negWeights | noTreated | noControls | tooFewControls
  deriving DecidableEq, Repr

section Whole
variable [LinearOrder K]

/-- `np.clip(ps, lo, hi)`, `drdid_panel.py:272`, `std_ipw_did_panel.py:271` (`lo = 1e-6`, `hi = 1 - 1e-6`). -/
def clip (lo hi : K) (ps : ι → K) (i : ι) : K := min hi (max lo (ps i))

/-- Comparison units. -/
def notB (d : ι → Bool) (i : ι) : Bool := !d i

/-- `drdid_panel`, `drdid_panel.py:107-135,209-234` (point estimate). -/
def drdidPanel (ols : OLS ι κ K) (logit : Logit ι κ K) (lo hi level : K) (y1 y0 : ι → K) (d : ι → Bool)
    (x : ι → κ → K) (w0 : ι → K) : Except EstErr K :=
  if ∃ i, w0 i < 0 then .error .negWeights else
  let w := normalize w0
  let dy := fun i => y1 i - y0 i
  if ¬ ∃ i, d i = true then .error .noTreated else
  if ¬ ∃ i, d i = false then .error .noControls else
  let ps := clip lo hi (logit w d x)
  let tr := trim level d ps
  let out := fitted x (ols w (notB d) x dy)
  if mean (wTreat d tr w) = 0 then .error .noTreated else
  if mean (wCont d tr ps w) = 0 then .error .noControls else
  .ok (drPanel d tr ps out dy w)

/-- `reg_did_panel`, `reg_did_panel.py:113-152,254-325` (point estimate; `none` is NaN).  With zero treated weight the
code returns the number 0 (lines 128-143); with no comparison unit it returns NaN (lines 287-289,154-182). -/
def regDidPanel (ols : OLS ι κ K) (y1 y0 : ι → K) (d : ι → Bool) (x : ι → κ → K) (w0 : ι → K) :
    Except EstErr (Option K) :=
  if ∃ i, w0 i < 0 then .error .negWeights else
  let w := normalize w0
  let dy := fun i => y1 i - y0 i
  let nC := (Finset.univ.filter (fun i => d i = false)).card
  if nC ≠ 0 ∧ nC < Fintype.card κ then .error .tooFewControls else
  if mean (fun i => w i * ind d i) = 0 then .ok (some 0) else
  if nC = 0 then .ok none else
  .ok (some (regPanel d (fitted x (ols w (notB d) x dy)) dy w))

/-- `std_ipw_did_panel`, `std_ipw_did_panel.py:102-134,207-232` (point estimate; `none` is NaN). -/
def stdIpwDidPanel (logit : Logit ι κ K) (lo hi level : K) (y1 y0 : ι → K) (d : ι → Bool)
    (x : ι → κ → K) (w0 : ι → K) : Except EstErr (Option K) :=
  if ∃ i, w0 i < 0 then .error .negWeights else
  let w := normalize w0
  let dy := fun i => y1 i - y0 i
  if ¬ ∃ i, d i = true then .error .noTreated else
  if ¬ ∃ i, d i = false then .error .noControls else
  let ps := clip lo hi (logit w d x)
  let tr := trim level d ps
  if mean (wTreat d tr w) = 0 then .ok none else
  if mean (wCont d tr ps w) = 0 then .ok none else
  .ok (some (ipwPanel d tr ps dy w))

/-- `drdid_imp_panel`, `drdid_imp_panel.py:120-135,198-224` (point estimate).  The outcome regression is weighted by
`w * ps / (1 - ps)` (`wols_panel`, `wols.py:112-198`), the scores come from inverse probability tilting. -/
def drdidImpPanel (ols : OLS ι κ K) (ipt : Logit ι κ K) (lo hi level : K) (y1 y0 : ι → K) (d : ι → Bool)
    (x : ι → κ → K) (w0 : ι → K) : Except EstErr K :=
  if ∃ i, w0 i < 0 then .error .negWeights else
  let w := normalize w0
  let dy := fun i => y1 i - y0 i
  let ps := clip lo hi (ipt w d x)
  let tr := trim level d ps
  if ¬ ∃ i, d i = false then .error .noControls else
  let out := fitted x (ols (fun i => w i * (ps i / (1 - ps i))) (notB d) x dy)
  .ok (impPanel d tr ps out dy w)

end Whole

/-- Observations of one arm and period, `wols.py:390-397`. -/
def cellSel (d post : ι → Bool) (pre treat : Bool) (i : ι) : Bool :=
  (d i == treat) && (post i == !pre)

section WholeRC
variable [LinearOrder K]

/-- Input checks shared by the repeated cross-section estimators, `drdid_rc.py:229-241`, `std_ipw_did_rc.py:178-189`,
`drdid_trad_rc.py`. -/
def rcChecks (d post : ι → Bool) (w0 : ι → K) : Bool :=
  decide (¬ (∃ i, w0 i < 0) ∧ (∃ i, d i = true) ∧ (∃ i, d i = false) ∧ (∃ i, post i = true) ∧ (∃ i, post i = false))

/-- `drdid_rc`, `drdid_rc.py:111-140` (`none`: an input check fails). -/
def drdidRC (ols : OLS ι κ K) (logit : Logit ι κ K) (lo hi level : K) (y : ι → K) (post d : ι → Bool)
    (x : ι → κ → K) (w0 : ι → K) : Option K :=
  if rcChecks d post w0 then
    let w := normalize w0
    let ps := clip lo hi (logit w d x)
    let tr := trim level d ps
    let out := fun pre treat => fitted x (ols w (cellSel d post pre treat) x y)
    some (drRC d tr post ps (out true false) (out false false) (out true true) (out false true) y w)
  else none

/-- `drdid_trad_rc`, `drdid_trad_rc.py:103-133`. -/
def drdidTradRC (ols : OLS ι κ K) (logit : Logit ι κ K) (lo hi level : K) (y : ι → K) (post d : ι → Bool)
    (x : ι → κ → K) (w0 : ι → K) : Option K :=
  if rcChecks d post w0 then
    let w := normalize w0
    let ps := clip lo hi (logit w d x)
    let tr := trim level d ps
    let out := fun pre => fitted x (ols w (cellSel d post pre false) x y)
    some (tradRC d tr post ps (out true) (out false) y w)
  else none

/-- `std_ipw_did_rc`, `std_ipw_did_rc.py:102-114`. -/
def stdIpwDidRC (logit : Logit ι κ K) (lo hi level : K) (y : ι → K) (post d : ι → Bool)
    (x : ι → κ → K) (w0 : ι → K) : Option K :=
  if rcChecks d post w0 then
    let w := normalize w0
    let ps := clip lo hi (logit w d x)
    let tr := trim level d ps
    some (ipwRC d tr post ps y w)
  else none

/-- `reg_did_rc`, `reg_did_rc.py:111-124` (regressions on comparison observations of each period, 208-294).
Simplification: a missing arm or period makes the code raise (216-217,257-258) or divide by zero; here `none`. -/
def regDidRC (ols : OLS ι κ K) (y : ι → K) (post d : ι → Bool) (x : ι → κ → K) (w0 : ι → K) : Option K :=
  if rcChecks d post w0 then
    let w := normalize w0
    let out := fun pre => fitted x (ols w (cellSel d post pre false) x y)
    some (regRC d post (out true) (out false) y w)
  else none

end WholeRC

end Verif.DR
