import Verif.DR.EntryEff
import Mathlib.Tactic.FieldSimp

set_option linter.unusedSectionVars false
set_option linter.unusedSimpArgs false

/-!
# The printed summary of `drdid`, `ipwdid` and `ordid` (C265)

`drdid/format.py`, and the `args` dictionaries of `drdid/drdid.py`, `ipwdid.py`, `ordid.py` and `drdid/estimators`.
-/

namespace Verif.Report

open Verif.DR Verif.DR.Entry Verif.Panel Verif.Valid

variable {ι κ K : Type*} [LinearOrder ι] [Fintype κ] [Field K] [LinearOrder K] [IsStrictOrderedRing K]

/-! ## Model -/

/-- The three entry points. -/
inductive Fn | dr | ipw | or
  deriving DecidableEq, Repr

/-- The entries of a result's `args` dictionary that are printed; `none` if the key is missing. -/
structure Args where
  type : Option String
  est_method : Option String
  estMethod : Option String
  normalized : Option Bool
  panel : Option Bool
  boot : Option Bool
  nboot : Option ℤ
  boot_type : Option String
  deriving DecidableEq, Repr

/-- `args` returned by the estimators themselves: `drdid_imp_panel.py:177-185`, `drdid_panel.py:188-196`, `drdid_imp_rc.py:186-194`,
`drdid_rc.py:195-203`, `drdid_imp_local_rc.py:212-220`, `drdid_trad_rc.py:170-178`, `ipw_did_panel.py:166-174`,
`std_ipw_did_panel.py:186-194`, `ipw_did_rc.py:169-177`, `std_ipw_did_rc.py:144-152`, `reg_did_panel.py:235-241`, `reg_did_rc.py:163-169`.
The keys `"boot.type"` (with a dot) of the first five are not read by anything. -/
def estArgs (e : Est) (boot : Bool) (nboot : ℤ) (bt : String) : Args :=
  match e with
  | .impPanel => ⟨some "dr", none, some "imp", none, some true, some boot, some nboot, none⟩
  | .tradPanel => ⟨some "dr", none, some "trad", none, some true, some boot, some nboot, none⟩
  | .impRC => ⟨some "dr", none, some "imp1", none, some false, some boot, some nboot, none⟩
  | .effRC => ⟨some "dr", none, some "trad", none, some false, some boot, some nboot, none⟩
  | .impLocalRC => ⟨some "dr", none, some "imp2", none, some false, some boot, some nboot, none⟩
  | .tradRC => ⟨some "dr", none, some "trad2", none, some false, some boot, some nboot, some bt⟩
  | .ipwPanel => ⟨some "ipw", none, none, some false, some true, some boot, some nboot, some bt⟩
  | .stdIpwPanel => ⟨some "ipw", none, none, some true, some true, some boot, some nboot, some bt⟩
  | .ipwRC => ⟨some "ipw", none, none, some false, some false, some boot, some nboot, some bt⟩
  | .stdIpwRC => ⟨some "ipw", none, none, some true, some false, some boot, some nboot, some bt⟩
  | .regPanel => ⟨some "or", none, none, none, some true, some boot, some nboot, some bt⟩
  | .regRC => ⟨some "or", none, none, none, some false, some boot, some nboot, some bt⟩

/-- `args.update(...)`, `drdid.py:372-384`, `ipwdid.py:293-305`, `ordid.py:220-230`. -/
def callArgs (f : Fn) (o : Opts K) (boot : Bool) (a : Args) : Args :=
  match f with
  | .dr => { a with panel := some o.panel, estMethod := some o.est, normalized := some true, boot := some boot,
                    boot_type := some o.bootType, nboot := some o.nBoot, type := some "dr" }
  | .ipw => { a with panel := some o.panel, estMethod := some o.est, normalized := some true, boot := some boot,
                     boot_type := some o.bootType, nboot := some o.nBoot, type := some "ipw" }
  | .or => { a with panel := some o.panel, normalized := some true, boot := some boot, boot_type := some o.bootType,
                    nboot := some o.nBoot, type := some "or" }

/-- `args.get("est_method", args.get("estMethod", "default"))`, `format.py:28`. -/
def methodOf (a : Args) : String := a.est_method.getD (a.estMethod.getD "default")

/-- `_get_estimator_title`, `format.py:126-146`. -/
def title (type m : String) : String :=
  if type = "dr" then
    if m = "imp" then "Doubly Robust DiD Estimator (Improved Method)"
    else if m = "trad" then "Doubly Robust DiD Estimator (Traditional Method)"
    else if m = "imp_local" then "Doubly Robust DiD Estimator (Improved Locally Efficient Method)"
    else if m = "trad_local" then "Doubly Robust DiD Estimator (Traditional Local Method)"
    else "Doubly Robust DiD Estimator"
  else if type = "ipw" then
    if m = "std_ipw" then "Standardized IPW DiD Estimator (Hajek-type)" else "Inverse Probability Weighted DiD Estimator"
  else if type = "or" then "Outcome Regression DiD Estimator"
  else if type = "twfe" then "Two-Way Fixed Effects DiD Estimator"
  else "Difference-in-Differences Estimator"

/-- The line about normalised weights. -/
def hajekLine : String := "Weight type: Normalized (Hajek-type estimator)"

/-- The line about weights that are not normalised. -/
def htLine : String := "Weight type: Unnormalized (Horvitz-Thompson-type)"

/-- `_get_method_description`, `format.py:149-183`. -/
def details (type m : String) (normalized : Option Bool) : List String :=
  if type = "dr" then
    if m = "imp" then ["Outcome regression: Weighted least squares", "Propensity score: Inverse probability tilting"]
    else if m = "trad" then ["Outcome regression: Ordinary least squares", "Propensity score: Logistic regression"]
    else if m = "imp_local" then ["Outcome regression: Locally weighted least squares", "Propensity score: Inverse probability tilting"]
    else if m = "trad_local" then ["Outcome regression: Local linear regression", "Propensity score: Logistic regression"]
    else ["Outcome regression and propensity score models"]
  else if type = "ipw" then
    [if m = "std_ipw" ∨ normalized.getD true = true then hajekLine else htLine, "Propensity score: Logistic regression"]
  else if type = "or" then ["Estimation method: Ordinary least squares"]
  else if type = "twfe" then ["Fixed effects: Unit and time", "Estimation method: Within transformation"]
  else []

/-- The printed summary apart from the numbers of the estimate (those are in C247). -/
structure Summary where
  title : String
  data : Option String
  details : List String
  inference : Option (ℤ × String)
  deriving DecidableEq, Repr

/-- `format_did_result`, `format.py:24-76`; `inference = none` is the line "Standard errors: Analytical". -/
def summary (a : Args) : Summary :=
  let type := a.type.getD "unknown"
  ⟨title type (methodOf a), a.panel.map fun p => if p then "Panel data" else "Repeated cross-sections",
    details type (methodOf a) a.normalized,
    if a.boot.getD false then some (a.nboot.getD 999, a.boot_type.getD "weighted") else none⟩

/-- The estimator a call chooses. -/
def choose (f : Fn) (o : Opts K) : Except Err Est :=
  match f with
  | .dr => drChoose o
  | .ipw => ipwChoose o
  | .or => orChoose o

/-- What `print(drdid(...))`, `print(ipwdid(...))`, `print(ordid(...))` shows once the estimator has returned. -/
def printed (f : Fn) (o : Opts K) (boot : Bool) : Except Err Summary :=
  match choose f o with
  | .error e => .error e
  | .ok e => .ok (summary (callArgs f o boot (estArgs e boot o.nBoot o.bootType)))

/-- "Computed from N observations and K covariates", `format.py:42-44`, from the shape of the data frame given by the user. -/
def countLine (rows cols : ℕ) : ℕ × ℤ := (rows, (cols : ℤ) - 4)

/-! ## C265: the summary names the estimator -/

/-- Spec: the estimator a title and a data line stand for, in the words of the documentation (`drdid.py:106-122`, `ipwdid.py:75-84`). -/
def nameTable : List ((String × String) × Est) :=
  [(("Doubly Robust DiD Estimator (Improved Method)", "Panel data"), .impPanel),
   (("Doubly Robust DiD Estimator (Improved Method)", "Repeated cross-sections"), .impRC),
   (("Doubly Robust DiD Estimator (Traditional Method)", "Panel data"), .tradPanel),
   (("Doubly Robust DiD Estimator (Traditional Method)", "Repeated cross-sections"), .effRC),
   (("Doubly Robust DiD Estimator (Improved Locally Efficient Method)", "Repeated cross-sections"), .impLocalRC),
   (("Doubly Robust DiD Estimator (Traditional Local Method)", "Repeated cross-sections"), .tradRC),
   (("Inverse Probability Weighted DiD Estimator", "Panel data"), .ipwPanel),
   (("Inverse Probability Weighted DiD Estimator", "Repeated cross-sections"), .ipwRC),
   (("Standardized IPW DiD Estimator (Hajek-type)", "Panel data"), .stdIpwPanel),
   (("Standardized IPW DiD Estimator (Hajek-type)", "Repeated cross-sections"), .stdIpwRC),
   (("Outcome Regression DiD Estimator", "Panel data"), .regPanel),
   (("Outcome Regression DiD Estimator", "Repeated cross-sections"), .regRC)]

/-- The entry of the table for a title and a data line. -/
def named (t l : String) : Option Est := nameTable.lookup (t, l)

lemma printed_ok {f : Fn} {o : Opts K} {e : Est} (h : choose f o = .ok e) (boot : Bool) :
    printed f o boot = .ok (summary (callArgs f o boot (estArgs e boot o.nBoot o.bootType))) := by
  unfold printed; rw [h]

lemma ite_error {p : Prop} [Decidable p] {x : Err} {b : Except Err Est} {e : Est} (h : (if p then .error x else b) = .ok e) :
    ¬ p ∧ b = .ok e := by
  by_cases hp : p
  · rw [if_pos hp] at h; exact absurd h (by simp)
  · rw [if_neg hp] at h; exact ⟨hp, h⟩

lemma drChoose_cases {o : Opts K} {e : Est} (h : drChoose o = .ok e) :
    (o.panel = true ∧ o.est = "imp" ∧ e = .impPanel) ∨ (o.panel = true ∧ o.est = "trad" ∧ e = .tradPanel) ∨
    (o.panel = false ∧ o.est = "imp" ∧ e = .impRC) ∨ (o.panel = false ∧ o.est = "trad" ∧ e = .effRC) ∨
    (o.panel = false ∧ o.est = "imp_local" ∧ e = .impLocalRC) ∨ (o.panel = false ∧ o.est = "trad_local" ∧ e = .tradRC) := by
  unfold drChoose at h
  obtain ⟨-, h⟩ := ite_error h
  obtain ⟨-, h⟩ := ite_error h
  obtain ⟨h3, h⟩ := ite_error h
  obtain ⟨h4, h⟩ := ite_error h
  obtain ⟨-, h⟩ := ite_error h
  obtain ⟨-, h⟩ := ite_error h
  obtain ⟨-, h⟩ := ite_error h
  rcases hp : o.panel <;> simp [hp] at h3 h4 h
  · split_ifs at h <;> simp_all
  · split_ifs at h <;> simp_all

lemma ipwChoose_cases {o : Opts K} {e : Est} (h : ipwChoose o = .ok e) :
    (o.panel = true ∧ o.est = "ipw" ∧ e = .ipwPanel) ∨ (o.panel = true ∧ o.est = "std_ipw" ∧ e = .stdIpwPanel) ∨
    (o.panel = false ∧ o.est = "ipw" ∧ e = .ipwRC) ∨ (o.panel = false ∧ o.est = "std_ipw" ∧ e = .stdIpwRC) := by
  unfold ipwChoose at h
  split_ifs at h <;> simp_all

lemma orChoose_cases {o : Opts K} {e : Est} (h : orChoose o = .ok e) :
    (o.panel = true ∧ e = .regPanel) ∨ (o.panel = false ∧ e = .regRC) := by
  unfold orChoose at h
  split_ifs at h <;> simp_all

/-- **C265.**  Title and data line of every printed result name the estimator that was run, and the standard-error lines report the
bootstrap exactly if one was asked for, with its kind and number of replications. -/
theorem C265_names (f : Fn) (o : Opts K) (boot : Bool) (s : Summary) (h : printed f o boot = .ok s) :
    ∃ e l, choose f o = .ok e ∧ s.data = some l ∧ named s.title l = some e ∧
      s.inference = if boot = true then some (o.nBoot, o.bootType) else none := by
  unfold printed at h
  rcases he : choose f o with e' | e
  · rw [he] at h; exact absurd h (by simp)
  · rw [he] at h
    obtain rfl := Except.ok.inj h
    refine ⟨e, if o.panel then "Panel data" else "Repeated cross-sections", rfl, ?_, ?_, ?_⟩
    · cases f <;> rfl
    · cases f
      · rcases drChoose_cases he with ⟨hp, hm, rfl⟩ | ⟨hp, hm, rfl⟩ | ⟨hp, hm, rfl⟩ | ⟨hp, hm, rfl⟩ | ⟨hp, hm, rfl⟩ | ⟨hp, hm, rfl⟩ <;>
          (show named (title "dr" o.est) _ = _; rw [hp, hm]; decide +kernel)
      · rcases ipwChoose_cases he with ⟨hp, hm, rfl⟩ | ⟨hp, hm, rfl⟩ | ⟨hp, hm, rfl⟩ | ⟨hp, hm, rfl⟩ <;>
          (show named (title "ipw" o.est) _ = _; rw [hp, hm]; decide +kernel)
      · rcases orChoose_cases he with ⟨hp, rfl⟩ | ⟨hp, rfl⟩ <;>
          (show named (title "or" "default") _ = _; rw [hp]; decide +kernel)
    · cases f <;> cases boot <;> rfl

/-- A repeated cross-section call of `drdid` with bootstrap. -/
example : ∃ s, printed .dr (⟨true, false, false, "imp_local", 199 / 200, "multiplier", 500⟩ : Opts ℚ) true = .ok s ∧
    s.title = "Doubly Robust DiD Estimator (Improved Locally Efficient Method)" ∧ s.inference = some (500, "multiplier") := by
  refine ⟨_, printed_ok (e := .impLocalRC) ?_ true, ?_, ?_⟩
  · simp [choose, drChoose]; norm_num
  · simp [summary, callArgs, estArgs, methodOf, title]
  · rfl

/-! ## C265: normalised weights -/

/-- **C265.**  With `est_method="std_ipw"` the weights are printed as normalised and they are: the same change of everybody's outcome leaves
the estimate of the panel estimator as it is. -/
theorem C265_normalised (o : Opts K) (boot : Bool) (hm : o.est = "std_ipw") (s : Summary) (h : printed .ipw o boot = .ok s) :
    hajekLine ∈ s.details ∧ htLine ∉ s.details ∧
    ∀ (fs : Fits κ K) (n : ℕ) (y1 y0 : Fin n → K) (d : Fin n → Bool) (x : Fin n → κ → K) (w : Fin n → K) (c a : K),
      panelEst fs .stdIpwPanel o.level n y1 y0 d x w = .ok (some a) →
      panelEst fs .stdIpwPanel o.level n (fun i => y1 i + c) y0 d x w = .ok (some a) := by
  unfold printed at h
  rcases he : choose .ipw o with e' | e
  · rw [he] at h; exact absurd h (by simp)
  · rw [he] at h
    obtain rfl := Except.ok.inj h
    refine ⟨?_, ?_, ?_⟩
    · rcases ipwChoose_cases he with ⟨hp, hm', rfl⟩ | ⟨hp, hm', rfl⟩ | ⟨hp, hm', rfl⟩ | ⟨hp, hm', rfl⟩ <;>
        simp_all [estArgs, summary, callArgs, methodOf, details, hajekLine, htLine]
    · rcases ipwChoose_cases he with ⟨hp, hm', rfl⟩ | ⟨hp, hm', rfl⟩ | ⟨hp, hm', rfl⟩ | ⟨hp, hm', rfl⟩ <;>
        simp_all [estArgs, summary, callArgs, methodOf, details, hajekLine, htLine]
    · intro fs n y1 y0 d x w c a ha
      have ha' : stdIpwDidPanel (fs.logit n) lo hi o.level y1 y0 d x w = .ok (some a) := by
        change ofEst _ = _ at ha
        rcases hq : stdIpwDidPanel (fs.logit n) lo hi o.level y1 y0 d x w with e1 | e1
        · rw [hq] at ha; exact absurd ha (by simp [ofEst])
        · rw [hq] at ha; simpa [ofEst] using ha
      have hs := C26_ipw_outcome_shift (fs.logit n) lo hi o.level y1 y0 (fun _ => 0) d x w c 0 a ha'
      have e1 : shifted1 y1 (fun _ => 0) d c 0 = fun i => y1 i + c := by
        funext i; unfold shifted1; split_ifs <;> ring
      have e2 : (fun i => y0 i + (0 : K)) = y0 := by funext i; ring
      rw [e1, e2, add_zero] at hs
      show ofEst _ = _
      rw [hs]
      rfl

/-- Two treated, two comparison units and the fitted scores of a model without covariates. -/
example : panelEst (⟨fun _ _ _ _ _ => fun _ => 0, fun _ _ _ _ => fun _ => 1 / 2, fun _ _ _ _ => fun _ => 1 / 2⟩ : Fits Unit ℚ) .stdIpwPanel (199 / 200) 4
    ![3, 5, 1, 1] ![0, 0, 0, 0] ![true, true, false, false] (fun _ _ => 1) (fun _ => 1) = .ok (some 3) := by
  decide +kernel

/-- The total of the comparison units' weights relative to the treated units' in the default estimator of `ipwdid`
(`ipw_did_panel.py:105-127`): the estimate is the treated units' mean change minus the sum of changes with these weights. -/
def compWeight (f : Fits κ K) (level : K) {n : ℕ} (d : Fin n → Bool) (x : Fin n → κ → K) (w : Fin n → K) : K :=
  let v := DR.normalize w
  let ps := clip lo hi (f.logit n v d x)
  mean (wCont d (trim level d ps) ps v) / mean (fun i => v i * ind d i)

lemma mean_mul_add {n : ℕ} (a b : Fin n → K) (c : K) : mean (fun i => a i * (b i + c)) = mean (fun i => a i * b i) + mean a * c := by
  unfold mean
  rw [div_mul_eq_mul_div, ← add_div, Finset.sum_mul, ← Finset.sum_add_distrib]
  congr 1
  exact Finset.sum_congr rfl fun i _ => by ring

lemma wTreat_trim {n : ℕ} (level : K) (d : Fin n → Bool) (ps v : Fin n → K) : wTreat d (trim level d ps) v = fun i => v i * ind d i := by
  funext i
  unfold wTreat
  cases hd : d i
  · simp [ind, hd]
  · simp [ind, trim, hd]

/-- **C265 (violated).**  With `est_method="ipw"`, the default, every accepted call prints the weights as normalised and never as
unnormalised; but raising everybody's later outcome by `c` raises the estimate by `c` times one minus the total weight of the comparison
units, which is one exactly for normalised weights. -/
theorem C265_weights_violated (o : Opts K) (boot : Bool) (hm : o.est = "ipw") (s : Summary) (h : printed .ipw o boot = .ok s) :
    hajekLine ∈ s.details ∧ htLine ∉ s.details ∧
    ∀ (fs : Fits κ K) (n : ℕ) (y1 y0 : Fin n → K) (d : Fin n → Bool) (x : Fin n → κ → K) (w : Fin n → K) (c a : K),
      panelEst fs .ipwPanel o.level n y1 y0 d x w = .ok (some a) →
      panelEst fs .ipwPanel o.level n (fun i => y1 i + c) y0 d x w = .ok (some (a + c * (1 - compWeight fs o.level d x w))) := by
  unfold printed at h
  rcases he : choose .ipw o with e' | e
  · rw [he] at h; exact absurd h (by simp)
  · rw [he] at h
    obtain rfl := Except.ok.inj h
    refine ⟨?_, ?_, ?_⟩
    · rcases ipwChoose_cases he with ⟨hp, hm', rfl⟩ | ⟨hp, hm', rfl⟩ | ⟨hp, hm', rfl⟩ | ⟨hp, hm', rfl⟩ <;>
        simp_all [estArgs, summary, callArgs, methodOf, details, hajekLine, htLine]
    · rcases ipwChoose_cases he with ⟨hp, hm', rfl⟩ | ⟨hp, hm', rfl⟩ | ⟨hp, hm', rfl⟩ | ⟨hp, hm', rfl⟩ <;>
        simp_all [estArgs, summary, callArgs, methodOf, details, hajekLine, htLine]
    · intro fs n y1 y0 d x w c a ha
      have ha' : ipwDidPanel (fs.logit n) lo hi o.level y1 y0 d x w = .ok (some a) := by
        change ofEst _ = _ at ha
        rcases hq : ipwDidPanel (fs.logit n) lo hi o.level y1 y0 d x w with e1 | e1
        · rw [hq] at ha; exact absurd ha (by simp [ofEst])
        · rw [hq] at ha; simpa [ofEst] using ha
      have hs : ipwDidPanel (fs.logit n) lo hi o.level (fun i => y1 i + c) y0 d x w =
          .ok (some (a + c * (1 - compWeight fs o.level d x w))) := by
        unfold ipwDidPanel at ha' ⊢
        unfold compWeight
        dsimp only at ha' ⊢
        split_ifs at ha' ⊢ with h1 h2 h3 h4
        · simp at ha'
        · rw [Except.ok.injEq, Option.some.injEq] at ha' ⊢
          have e : (fun i => y1 i + c - y0 i) = fun i => (y1 i - y0 i) + c := by funext i; ring
          have e0 : ∀ i, y1 i + c - y0 i = (y1 i - y0 i) + c := fun i => by ring
          simp only [e0]
          rw [mean_mul_add _ (fun i => y1 i - y0 i) c, mean_mul_add _ (fun i => y1 i - y0 i) c, ← ha', wTreat_trim]
          field_simp
          ring
      show ofEst _ = _
      rw [hs]
      rfl

/-- Logistic scores of a model without covariates: the share of treated units; half of the units are treated, and trimming at 0.4 drops the
comparison units: the total weight of the comparison units is zero. -/
def htFits : Fits Unit ℚ := ⟨fun _ _ _ _ _ => fun _ => 0, fun _ _ d _ => fun _ => mean (ind d), fun _ _ d _ => fun _ => mean (ind d)⟩

example : panelEst htFits .ipwPanel (2 / 5) 4 ![3, 5, 1, 1] ![0, 0, 0, 0] ![true, true, false, false] (fun _ _ => 1) (fun _ => 1) = .ok (some 4) ∧
    compWeight htFits (2 / 5) ![true, true, false, false] (fun _ _ => 1) (fun _ => 1) = 0 ∧
    panelEst htFits .ipwPanel (2 / 5) 4 ![13, 15, 11, 11] ![0, 0, 0, 0] ![true, true, false, false] (fun _ _ => 1) (fun _ => 1) = .ok (some 14) := by
  decide +kernel

example : ∃ s, printed .ipw (⟨true, true, true, "ipw", 2 / 5, "weighted", 999⟩ : Opts ℚ) false = .ok s ∧ hajekLine ∈ s.details := by
  have hp : choose .ipw (⟨true, true, true, "ipw", 2 / 5, "weighted", 999⟩ : Opts ℚ) = .ok .ipwPanel := by simp [choose, ipwChoose]; norm_num
  exact ⟨_, printed_ok hp false, (C265_weights_violated (κ := Unit) _ false rfl _ (printed_ok hp false)).1⟩

/-! ## C265: the count line -/

/-- The columns the user's frame consists of: the four (three without unit column) named ones, possibly a weight column, the covariates of
the formula and columns not used at all. -/
structure Cols where
  unit : Bool
  weights : Bool
  covariates : ℕ
  unused : ℕ

/-- Number of columns of the frame. -/
def Cols.total (c : Cols) : ℕ := 3 + c.unit.toNat + c.weights.toNat + c.covariates + c.unused

lemma filterMap_full (df : List (Row ι ℤ (Obs κ K))) : (df.filterMap full?).length = df.length ↔ ∀ r ∈ df, r.val.v ≠ none := by
  induction df with
  | nil => simp
  | cons r l ih =>
    have hle : (l.filterMap full?).length ≤ l.length := List.length_filterMap_le _ _
    rw [List.forall_mem_cons, ← ih]
    rcases hv : r.val.v with _ | v
    · have hf : full? r = none := by unfold full?; rw [hv]; rfl
      rw [List.filterMap_cons_none hf, List.length_cons]
      constructor
      · intro h; omega
      · rintro ⟨h, -⟩; exact absurd rfl h
    · have hf : full? r = some ⟨r.id, r.t, ⟨r.val.d, v.y, v.w, v.x⟩⟩ := by unfold full?; rw [hv]; rfl
      rw [List.filterMap_cons_some hf, List.length_cons, List.length_cons]
      simp

/-- **C265 (violated).**  The printed number of covariates is the number of columns less four: it is the number of covariates exactly if the
frame has a unit column and nothing unused nor weights, or no unit column and exactly one other; repeated cross-sections without unit
column and covariates print minus one.  The printed number of observations counts the rows of the frame, also those dropped for missing
values. -/
theorem C265_counts_violated (rows : ℕ) (c : Cols) :
    ((countLine rows c.total).2 = c.covariates ↔ c.unit.toNat + c.weights.toNat + c.unused = 1) ∧
    (c.unit = false → c.weights = false → c.unused = 0 → c.covariates = 0 → (countLine rows c.total).2 = -1) ∧
    ∀ (df : List (Row ι ℤ (Obs κ K))) (used : List (Row ι ℤ (Full κ K))), dropNulls false df = some used →
      ((countLine df.length c.total).1 = used.length ↔ ∀ r ∈ df, r.val.v ≠ none) := by
  refine ⟨?_, ?_, ?_⟩
  · unfold countLine Cols.total
    push_cast
    constructor <;> intro h <;> omega
  · intro h1 h2 h3 h4
    simp [countLine, Cols.total, h1, h2, h3, h4]
  · intro df used h
    have hu : used = df.filterMap full? := by
      unfold dropNulls at h
      simpa using h.symm
    subst hu
    show df.length = _ ↔ _
    rw [eq_comm, filterMap_full]

/-- A panel with a weight column and one covariate prints two covariates. -/
example : (countLine 100 (Cols.total ⟨true, true, 1, 0⟩)).2 = 2 := by decide

example : (countLine 100 (Cols.total ⟨true, true, 1, 0⟩)).2 ≠ (1 : ℕ) := fun h =>
  absurd ((C265_counts_violated (ι := ℕ) (κ := Unit) (K := ℚ) 100 ⟨true, true, 1, 0⟩).1.1 h) (by decide)

end Verif.Report
