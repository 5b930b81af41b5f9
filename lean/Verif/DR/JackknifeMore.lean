import Verif.DR.JackknifeEx
import Verif.DR.RefitModel

set_option linter.unusedSectionVars false

/-!
# Influence functions are derivatives of the estimate: the remaining two-period estimators (C72)

Horvitz–Thompson weighting (`ipw_did_panel.py`, `ipw_did_rc.py`) and the improved doubly robust estimators for repeated
cross-sections (`drdid_imp_rc.py`, `drdid_imp_local_rc.py`).  The specification is the one of `Jackknife.lean`.
-/

namespace Verif.DR

open Filter Topology

section Models
variable {ι κ K : Type*} [Fintype ι] [Fintype κ] [Field K]

/-- `ipw_did_panel` point estimate from fitted scores, `ipw_did_panel.py:115-127`; `ipwDidPanel` is this after the fits. -/
def htPanel (d tr : ι → Bool) (ps dy w : ι → K) : K :=
  mean (fun i => wTreat d tr w i * dy i) / mean (fun i => w i * ind d i)
    - mean (fun i => wCont d tr ps w i * dy i) / mean (fun i => w i * ind d i)

/-- Influence function of `ipw_did_panel`, `ipw_did_panel.py:288-305`. -/
def htPanelIF (d tr : ι → Bool) (ps dy w : ι → K) (x : ι → κ → K) (H : κ → κ → K) (i : ι) : K :=
  let aT := fun i => wTreat d tr w i * dy i
  let aC := fun i => wCont d tr ps w i * dy i
  let lin1 := aT i - aC i
  let mom := fun k => mean (fun j => aC j * x j k)
  let lin2 := dot (alrPS d ps w x H i) mom
  (lin1 - lin2 - w i * ind d i * htPanel d tr ps dy w) / mean (fun i => w i * ind d i)

/-- One component `mean(eta)` of `ipw_did_rc`, `ipw_did_rc.py:281-291`: weights `v`, period shares from `q`. -/
def htComp (d : ι → Bool) (w q v y : ι → K) : K :=
  mean (fun i => v i * y i / (mean (fun i => w i * ind d i) * mean (fun i => w i * q i)))

/-- `ipw_did_rc` point estimate from fitted scores, `ipw_did_rc.py:112-128,259-302`; `ipwDidRC` is this after the fits. -/
def htRC (d tr post : ι → Bool) (ps y w : ι → K) : K :=
  (htComp d w (postK post) (fun i => w i * ind d i * postK post i) y
      - htComp d w (preK post) (fun i => w i * ind d i * preK post i) y)
    - (htComp d w (postK post) (wContRC d tr ps w (postK post)) y
      - htComp d w (preK post) (wContRC d tr ps w (preK post)) y)

/-- `inf_*1 + inf_*2 + inf_*3` of a component, `ipw_did_rc.py:338-357`. -/
def htLead (d : ι → Bool) (w q v y : ι → K) (i : ι) : K :=
  let p := mean (fun i => w i * ind d i)
  let l := mean (fun i => w i * q i)
  let att := htComp d w q v y
  (v i * y i / (p * l) - att) + -(w i * ind d i - p) * att / p + -(w i * q i - l) * att / l

/-- `mean(eta * x)`, `ipw_did_rc.py:361-362` without the sign. -/
def htMom (d : ι → Bool) (w q v y : ι → K) (x : ι → κ → K) (k : κ) : K :=
  mean (fun i => v i * y i / (mean (fun i => w i * ind d i) * mean (fun i => w i * q i)) * x i k)

/-- Influence function of `ipw_did_rc`, `ipw_did_rc.py:321-370`. -/
def htRCIF (d tr post : ι → Bool) (ps y w : ι → K) (x : ι → κ → K) (H : κ → κ → K) (i : ι) : K :=
  let c1 := wContRC d tr ps w (postK post)
  let c0 := wContRC d tr ps w (preK post)
  let infLogit := dot (alrPS d ps w x H i) (fun k => - htMom d w (postK post) c1 y x k - - htMom d w (preK post) c0 y x k)
  (htLead d w (postK post) (fun i => w i * ind d i * postK post i) y i
      - htLead d w (preK post) (fun i => w i * ind d i * preK post i) y i)
    - (htLead d w (postK post) c1 y i - htLead d w (preK post) c0 y i) + infLogit

/-- Influence function of `drdid_imp_rc`, `drdid_imp_rc.py:286-328`; the estimate is `tradRC` with the improved fits. -/
def impRCIF (d tr post : ι → Bool) (ps outPre outPost y w : ι → K) (i : ι) : K :=
  let res := fun i => y i - (postK post i * outPost i + (1 - postK post i) * outPre i)
  (lead (wTreatRC d tr w (postK post)) res i - lead (wTreatRC d tr w (preK post)) res i)
    - (lead (wContRC d tr ps w (postK post)) res i - lead (wContRC d tr ps w (preK post)) res i)

/-- Influence function of `drdid_imp_local_rc`, `drdid_imp_local_rc.py:337-401`; the estimate is `drRC` with the improved
fits (treated observations are never trimmed, so the factor `trim_ps` of `drRC` is 1 on them). -/
def impLocalRCIF (d tr post : ι → Bool) (ps outCPre outCPost outTPre outTPost y w : ι → K) (i : ι) : K :=
  let wd := fun i => ind tr i * w i * ind d i
  let wd1 := fun i => ind tr i * w i * ind d i * postK post i
  let wd0 := fun i => ind tr i * w i * ind d i * (1 - postK post i)
  let dpost := fun i => outTPost i - outCPost i
  let dpre := fun i => outTPre i - outCPre i
  impRCIF d tr post ps outCPre outCPost y w i
    + ((lead wd dpost i - lead wd1 dpost i) - (lead wd dpre i - lead wd0 dpre i))

end Models

/-- The definitions above are the estimates of `RefitModel`. -/
theorem ipwDidPanel_eq {ι κ : Type*} [Fintype ι] [Fintype κ] (logit : Logit ι κ ℝ) (lo hi level : ℝ) (y1 y0 : ι → ℝ)
    (d : ι → Bool) (x : ι → κ → ℝ) (w0 : ι → ℝ) (a : ℝ) (h : ipwDidPanel logit lo hi level y1 y0 d x w0 = .ok (some a)) :
    a = htPanel d (trim level d (clip lo hi (logit (normalize w0) d x))) (clip lo hi (logit (normalize w0) d x))
      (fun i => y1 i - y0 i) (normalize w0) := by
  unfold ipwDidPanel at h
  dsimp only at h
  split_ifs at h with h1 h2 h3 h4
  · simp at h
  · simp only [Except.ok.injEq, Option.some.injEq] at h
    rw [← h]; rfl

theorem ipwDidRC_eq {ι κ : Type*} [Fintype ι] [Fintype κ] (logit : Logit ι κ ℝ) (lo hi level : ℝ) (y : ι → ℝ)
    (post d : ι → Bool) (x : ι → κ → ℝ) (w0 : ι → ℝ) (a : ℝ) (h : ipwDidRC logit lo hi level y post d x w0 = some a) :
    a = htRC d (trim level d (clip lo hi (logit (normalize w0) d x))) post (clip lo hi (logit (normalize w0) d x)) y
      (normalize w0) := by
  unfold ipwDidRC at h
  dsimp only at h
  split_ifs at h with h1 h2 h3
  simp only [Option.some.injEq] at h
  rw [← h]; rfl

variable {ι κ : Type*} [Fintype ι] [Fintype κ] [DecidableEq ι]

section HT
variable [DecidableEq κ]

/-- **C72 (Horvitz–Thompson, panel).** -/
theorem C72_ht_panel (d tr : ι → Bool) (dy w : ι → ℝ) (x : ι → κ → ℝ) (H : κ → κ → ℝ) (γ : ℝ → κ → ℝ) (i : ι)
    (hγ : RefitLogit w i d x γ)
    (hH : IsGramInv (fun j => psOf x (γ 0) j * (1 - psOf x (γ 0) j) * w j) x H)
    (hT : mean (fun j => w j * ind d j) ≠ 0) :
    HasDerivAt (fun t => htPanel d tr (psOf x (γ t)) dy (upw w i t)) (htPanelIF d tr (psOf x (γ 0)) dy w x H i) 0 := by
  have hg := hγ.deriv hH
  have hN := hasDerivAt_wsum w i (f := fun j t => (ind tr j * ind d j - ind tr j * (1 - ind d j) *
        (psOf x (γ t) j / (1 - psOf x (γ t) j))) * dy j)
      (fun j => (((hasDerivAt_odds x hg j).const_mul (ind tr j * (1 - ind d j))).const_sub
        (ind tr j * ind d j)).mul_const (dy j))
  have hD := hasDerivAt_wsum w i (f := fun j _ => ind d j) (fun j => hasDerivAt_const 0 (ind d j))
  have h := hN.fun_div hD (by rw [upw_zero]; exact hT)
  have e : (fun t => htPanel d tr (psOf x (γ t)) dy (upw w i t)) = fun t =>
      mean (fun j => upw w i t j * ((ind tr j * ind d j - ind tr j * (1 - ind d j) *
        (psOf x (γ t) j / (1 - psOf x (γ t) j))) * dy j)) / mean (fun j => upw w i t j * ind d j) := by
    funext t
    unfold htPanel
    rw [← sub_div, ← mean_sub']
    congr 2; funext j
    unfold wTreat wCont
    ring
  have e0 := congrFun e 0
  rw [e]
  refine h.congr_deriv ?_
  unfold htPanelIF
  simp only [upw_zero] at e0 ⊢
  set A := alrPS d (psOf x (γ 0)) w x H i
  have e1 : dot A (fun k => mean (fun j => wCont d tr (psOf x (γ 0)) w j * dy j * x j k)) =
      - mean (fun j => w j * (-(ind tr j * (1 - ind d j) * (psOf x (γ 0) j / (1 - psOf x (γ 0) j) * fitted x A j)) * dy j)) := by
    rw [← mean_fitted]
    unfold mean
    rw [← neg_div, ← Finset.sum_neg_distrib]
    congr 1
    refine Finset.sum_congr rfl fun j _ => ?_
    unfold wCont; ring
  have e2 : mean (fun j : ι => w j * (0:ℝ)) = 0 := by simp [mean]
  simp only [e1, e0, e2]
  have e3 : wTreat d tr w i * dy i - wCont d tr (psOf x (γ 0)) w i * dy i =
      w i * ((ind tr i * ind d i - ind tr i * (1 - ind d i) * (psOf x (γ 0) i / (1 - psOf x (γ 0) i))) * dy i) := by
    unfold wTreat wCont; ring
  rw [e3]
  field_simp
  ring

/-- Derivative of one component along unnormalised weights. -/
lemma hasDerivAt_htComp (d : ι → Bool) (w q y : ι → ℝ) (i : ι) {a : ι → ℝ → ℝ} {a' : ι → ℝ}
    (ha : ∀ j, HasDerivAt (a j) (a' j) 0) (hP : mean (fun j => w j * ind d j) ≠ 0) (hL : mean (fun j => w j * q j) ≠ 0) :
    HasDerivAt (fun t => htComp d (upw w i t) q (fun j => upw w i t j * a j t) y)
      (htLead d w q (fun j => w j * a j 0) y i - htComp d w q (fun j => w j * a j 0) y
        + mean (fun j => w j * a' j * y j) / (mean (fun j => w j * ind d j) * mean (fun j => w j * q j))) 0 := by
  have hN := hasDerivAt_wsum w i (f := fun j t => a j t * y j) (fun j => (ha j).mul_const (y j))
  have hPd := hasDerivAt_wsum w i (f := fun j _ => ind d j) (fun j => hasDerivAt_const 0 (ind d j))
  have hLd := hasDerivAt_wsum w i (f := fun j _ => q j) (fun j => hasDerivAt_const 0 (q j))
  have h := hN.fun_div (hPd.fun_mul hLd) (by simp only [upw_zero]; exact mul_ne_zero hP hL)
  have ec : ∀ (u v : ι → ℝ), htComp d u q v y = mean (fun j => v j * y j) / (mean (fun j => u j * ind d j) * mean (fun j => u j * q j)) := by
    intro u v
    unfold htComp
    rw [← mean_div']
  have e : (fun t => htComp d (upw w i t) q (fun j => upw w i t j * a j t) y) = fun t =>
      mean (fun j => upw w i t j * (a j t * y j)) / (mean (fun j => upw w i t j * ind d j) * mean (fun j => upw w i t j * q j)) := by
    funext t
    rw [ec]
    congr 2; funext j; ring
  rw [e]
  refine h.congr_deriv ?_
  unfold htLead
  simp only [ec, upw_zero]
  have e1 : mean (fun j => w j * a j 0 * y j) = mean (fun j => w j * (a j 0 * y j)) := by congr 1; funext j; ring
  have e2 : mean (fun j => w j * a' j * y j) = mean (fun j => w j * (a' j * y j)) := by congr 1; funext j; ring
  have e3 : mean (fun j : ι => w j * (0:ℝ)) = 0 := by simp [mean]
  rw [e1, e2, e3]
  field_simp
  ring

lemma htRC_normalize (d tr post : ι → Bool) (ps y u : ι → ℝ) (hu : mean u ≠ 0) :
    htRC d tr post ps y (normalize u) = mean u * htRC d tr post ps y u := by
  have ed : ∀ f : ι → ℝ, mean (fun j => normalize u j * f j) = mean (fun j => u j * f j) / mean u := by
    intro f; rw [← mean_div']; congr 1; funext j; unfold normalize; ring
  have key : ∀ (q a : ι → ℝ), htComp d (normalize u) q (fun j => normalize u j * a j) y =
      mean u * htComp d u q (fun j => u j * a j) y := by
    intro q a
    unfold htComp
    rw [ed, ed, mul_comm (mean u), ← mean_mul']
    congr 1; funext j
    unfold normalize
    by_cases h1 : mean (fun j => u j * ind d j) = 0
    · simp [h1]
    by_cases h2 : mean (fun j => u j * q j) = 0
    · simp [h2]
    field_simp
  unfold htRC
  have e1 : ∀ (u q : ι → ℝ), (fun j => u j * ind d j * q j) = fun j => u j * (ind d j * q j) := by
    intro u q; funext j; ring
  simp only [e1, wContRC_upw, key]
  ring

/-- The Horvitz–Thompson estimate for repeated cross-sections: distance between the derivative of the estimate (weights
renormalised to mean one, as the code does on entry) and the reported influence value. -/
theorem C72_ht_rc_gap (d tr post : ι → Bool) (y w : ι → ℝ) (x : ι → κ → ℝ) (H : κ → κ → ℝ) (γ : ℝ → κ → ℝ) (i : ι)
    (hw : mean w = 1) (hγ : RefitLogit w i d x γ)
    (hH : IsGramInv (fun j => psOf x (γ 0) j * (1 - psOf x (γ 0) j) * w j) x H)
    (hP : mean (fun j => w j * ind d j) ≠ 0) (hL1 : mean (fun j => w j * postK post j) ≠ 0)
    (hL0 : mean (fun j => w j * preK post j) ≠ 0) :
    HasDerivAt (fun t => htRC d tr post (psOf x (γ t)) y (normalize (upw w i t)))
      (htRCIF d tr post (psOf x (γ 0)) y w x H i + (w i - 1) * htRC d tr post (psOf x (γ 0)) y w) 0 := by
  have hg := hγ.deriv hH
  set A := alrPS d (psOf x (γ 0)) w x H i with hA
  have hm : HasDerivAt (fun t => mean (upw w i t)) (w i) 0 := by
    have := hasDerivAt_wsum w i (f := fun _ _ => 1) (fun j => hasDerivAt_const 0 (1:ℝ))
    simp only [mul_one, mul_zero] at this
    have e2 : mean (fun _ : ι => (0:ℝ)) = 0 := by simp [mean]
    rw [e2, add_zero] at this
    exact this
  have t1 := hasDerivAt_htComp d w (postK post) y i (a := fun j _ => ind d j * postK post j)
    (fun j => hasDerivAt_const 0 _) hP hL1
  have t0 := hasDerivAt_htComp d w (preK post) y i (a := fun j _ => ind d j * preK post j)
    (fun j => hasDerivAt_const 0 _) hP hL0
  have c1 := hasDerivAt_htComp d w (postK post) y i
    (a := fun j t => ind tr j * (1 - ind d j) * postK post j * (psOf x (γ t) j / (1 - psOf x (γ t) j)))
    (fun j => (hasDerivAt_odds x hg j).const_mul (ind tr j * (1 - ind d j) * postK post j)) hP hL1
  have c0 := hasDerivAt_htComp d w (preK post) y i
    (a := fun j t => ind tr j * (1 - ind d j) * preK post j * (psOf x (γ t) j / (1 - psOf x (γ t) j)))
    (fun j => (hasDerivAt_odds x hg j).const_mul (ind tr j * (1 - ind d j) * preK post j)) hP hL0
  have h := hm.fun_mul ((t1.fun_sub t0).fun_sub (c1.fun_sub c0))
  have e1 : ∀ (u q : ι → ℝ), (fun j => u j * ind d j * q j) = fun j => u j * (ind d j * q j) := by
    intro u q; funext j; ring
  have ee : (fun t => htRC d tr post (psOf x (γ t)) y (normalize (upw w i t))) =ᶠ[𝓝 0] fun t =>
      mean (upw w i t) * ((htComp d (upw w i t) (postK post) (fun j => upw w i t j * (ind d j * postK post j)) y
        - htComp d (upw w i t) (preK post) (fun j => upw w i t j * (ind d j * preK post j)) y)
        - (htComp d (upw w i t) (postK post) (fun j => upw w i t j * (ind tr j * (1 - ind d j) * postK post j *
            (psOf x (γ t) j / (1 - psOf x (γ t) j)))) y
          - htComp d (upw w i t) (preK post) (fun j => upw w i t j * (ind tr j * (1 - ind d j) * preK post j *
            (psOf x (γ t) j / (1 - psOf x (γ t) j)))) y)) := by
    have hne : ∀ᶠ t in 𝓝 (0:ℝ), mean (upw w i t) ≠ 0 := by
      apply hm.continuousAt.eventually_ne
      rw [upw_zero, hw]; exact one_ne_zero
    filter_upwards [hne] with t ht
    rw [htRC_normalize _ _ _ _ _ _ ht]
    unfold htRC
    simp only [e1, wContRC_upw]
  refine (h.congr_of_eventuallyEq ee).congr_deriv ?_
  unfold htRCIF htRC
  simp only [upw_zero, hw, e1, wContRC_upw, one_mul]
  have em : ∀ (q : ι → ℝ), dot A (htMom d w q (fun j => w j * (ind tr j * (1 - ind d j) * q j *
        (psOf x (γ 0) j / (1 - psOf x (γ 0) j)))) y x) =
      mean (fun j => w j * (ind tr j * (1 - ind d j) * q j * (psOf x (γ 0) j / (1 - psOf x (γ 0) j) * fitted x A j)) * y j)
        / (mean (fun j => w j * ind d j) * mean (fun j => w j * q j)) := by
    intro q
    unfold htMom
    rw [← mean_fitted, ← mean_div']
    congr 1; funext j; ring
  have ez : mean (fun j => w j * (0:ℝ) * y j) = 0 := by simp [mean]
  have es : dot A (fun k => - htMom d w (postK post) (fun j => w j * (ind tr j * (1 - ind d j) * postK post j *
        (psOf x (γ 0) j / (1 - psOf x (γ 0) j)))) y x k - - htMom d w (preK post) (fun j => w j * (ind tr j * (1 - ind d j) * preK post j *
        (psOf x (γ 0) j / (1 - psOf x (γ 0) j)))) y x k) =
      - dot A (htMom d w (postK post) (fun j => w j * (ind tr j * (1 - ind d j) * postK post j *
        (psOf x (γ 0) j / (1 - psOf x (γ 0) j)))) y x) + dot A (htMom d w (preK post) (fun j => w j * (ind tr j * (1 - ind d j) * preK post j *
        (psOf x (γ 0) j / (1 - psOf x (γ 0) j)))) y x) := by
    rw [dot_sub, dot_neg, dot_neg]; ring
  rw [es, em, em, ez]
  ring

/-- **C72 (Horvitz–Thompson, repeated cross-sections, equal weights).** -/
theorem C72_ht_rc_unweighted (d tr post : ι → Bool) (y : ι → ℝ) (x : ι → κ → ℝ) (H : κ → κ → ℝ) (γ : ℝ → κ → ℝ) (i : ι)
    (hγ : RefitLogit (fun _ => 1) i d x γ)
    (hH : IsGramInv (fun j => psOf x (γ 0) j * (1 - psOf x (γ 0) j) * 1) x H)
    (hP : ∃ j, d j = true) (hL1 : ∃ j, post j = true) (hL0 : ∃ j, post j = false) :
    HasDerivAt (fun t => htRC d tr post (psOf x (γ t)) y (normalize (upw (fun _ => 1) i t)))
      (htRCIF d tr post (psOf x (γ 0)) y (fun _ => 1) x H i) 0 := by
  have : Nonempty ι := ⟨i⟩
  have pos : ∀ f : ι → ℝ, (∀ j, 0 ≤ f j) → (∃ j, 0 < f j) → mean f ≠ 0 := by
    intro f h0 ⟨j, hj⟩
    have : 0 < ∑ j, f j := Finset.sum_pos' (fun j _ => h0 j) ⟨j, Finset.mem_univ j, hj⟩
    unfold mean
    exact div_ne_zero this.ne' card_ne
  have hw : mean (fun _ : ι => (1:ℝ)) = 1 := by
    unfold mean; simp
  have h := C72_ht_rc_gap d tr post y (fun _ => 1) x H γ i hw hγ hH
    (pos _ (fun j => by cases hd : d j <;> simp [ind, hd]) (hP.imp fun j hj => by simp [ind, hj]))
    (pos _ (fun j => by cases hd : post j <;> simp [postK, ind, hd]) (hL1.imp fun j hj => by simp [postK, ind, hj]))
    (pos _ (fun j => by cases hd : post j <;> simp [preK, ind, hd]) (hL0.imp fun j hj => by simp [preK, ind, hj]))
  simpa using h

end HT

/-! ## Improved estimators for repeated cross-sections -/

/-- Covariate mean of a set of weights. -/
noncomputable def xbar (u : ι → ℝ) (x : ι → κ → ℝ) (k : κ) : ℝ := mean (fun j => u j * x j k) / mean u

/-- Derivative of the four-component estimate along arbitrary differentiable nuisance coefficients. -/
lemma tradRC_path (d tr post : ι → Bool) (y w : ι → ℝ) (x : ι → κ → ℝ) {β0 β1 γ : ℝ → κ → ℝ} {b0 b1 g : κ → ℝ} (i : ι)
    (hb0 : ∀ k, HasDerivAt (fun t => β0 t k) (b0 k) 0) (hb1 : ∀ k, HasDerivAt (fun t => β1 t k) (b1 k) 0)
    (hg : ∀ k, HasDerivAt (fun t => γ t k) (g k) 0)
    (hT1 : mean (wTreatRC d tr w (postK post)) ≠ 0) (hT0 : mean (wTreatRC d tr w (preK post)) ≠ 0)
    (hC1 : mean (wContRC d tr (psOf x (γ 0)) w (postK post)) ≠ 0)
    (hC0 : mean (wContRC d tr (psOf x (γ 0)) w (preK post)) ≠ 0) :
    HasDerivAt (fun t => tradRC d tr post (psOf x (γ t)) (fitted x (β0 t)) (fitted x (β1 t)) y (upw w i t))
      (impRCIF d tr post (psOf x (γ 0)) (fitted x (β0 0)) (fitted x (β1 0)) y w i
        + (dot b0 (xbar (wTreatRC d tr w (preK post)) x) - dot b0 (xbar (wContRC d tr (psOf x (γ 0)) w (preK post)) x))
        - (dot b1 (xbar (wTreatRC d tr w (postK post)) x) - dot b1 (xbar (wContRC d tr (psOf x (γ 0)) w (postK post)) x))
        - (dot g (fun k => mean (fun j => (wContRC d tr (psOf x (γ 0)) w (postK post) j * ((y j - fitted x (β1 0) j)
              - hmean (wContRC d tr (psOf x (γ 0)) w (postK post)) (fun j => y j - fitted x (β1 0) j))) * x j k)
            / mean (wContRC d tr (psOf x (γ 0)) w (postK post)))
          - dot g (fun k => mean (fun j => (wContRC d tr (psOf x (γ 0)) w (preK post) j * ((y j - fitted x (β0 0) j)
              - hmean (wContRC d tr (psOf x (γ 0)) w (preK post)) (fun j => y j - fitted x (β0 0) j))) * x j k)
            / mean (wContRC d tr (psOf x (γ 0)) w (preK post))))) 0 := by
  have h := ((hasDerivAt_treatRC d tr w _ y i x hb1 hT1).fun_sub (hasDerivAt_treatRC d tr w _ y i x hb0 hT0)).fun_sub
    ((hasDerivAt_contRC d tr w _ y i x hb1 hg hC1).fun_sub (hasDerivAt_contRC d tr w _ y i x hb0 hg hC0))
  have e : (fun t => tradRC d tr post (psOf x (γ t)) (fitted x (β0 t)) (fitted x (β1 t)) y (upw w i t)) =
      fun t => (hmean (wTreatRC d tr (upw w i t) (postK post)) (fun j => y j - fitted x (β1 t) j) -
        hmean (wTreatRC d tr (upw w i t) (preK post)) (fun j => y j - fitted x (β0 t) j)) -
        (hmean (wContRC d tr (psOf x (γ t)) (upw w i t) (postK post)) (fun j => y j - fitted x (β1 t) j) -
        hmean (wContRC d tr (psOf x (γ t)) (upw w i t) (preK post)) (fun j => y j - fitted x (β0 t) j)) := by
    funext t
    rw [tradRC_pres, hmean_post (fun j => wTreatRC_fac d tr (upw w i t) (postK post) j),
      hmean_pre (fun j => wTreatRC_fac d tr (upw w i t) (preK post) j),
      hmean_post (fun j => wContRC_fac d tr _ (upw w i t) (postK post) j),
      hmean_pre (fun j => wContRC_fac d tr _ (upw w i t) (preK post) j)]
  rw [e]
  refine h.congr_deriv ?_
  unfold impRCIF
  simp only
  have ep : (fun i => y i - (postK post i * fitted x (β1 0) i + (1 - postK post i) * fitted x (β0 0) i)) =
      pres post y (fitted x (β0 0)) (fitted x (β1 0)) := rfl
  rw [ep, lead_post (fun j => wTreatRC_fac d tr w (postK post) j),
    lead_pre (fun j => wTreatRC_fac d tr w (preK post) j),
    lead_post (fun j => wContRC_fac d tr _ w (postK post) j),
    lead_pre (fun j => wContRC_fac d tr _ w (preK post) j)]
  have ex : ∀ u : ι → ℝ, (fun k => mean (fun j => u j * x j k) / mean u) = xbar u x := fun _ => rfl
  simp only [ex]
  ring

/-- `γ` is a differentiable path of tilting coefficients for the perturbed weights, `pscore_ipt.py:185-246`. -/
structure RefitIPT (w : ι → ℝ) (i : ι) (d : ι → Bool) (x : ι → κ → ℝ) (γ : ℝ → κ → ℝ) : Prop where
  diff : ∀ k, DifferentiableAt ℝ (fun t => γ t k) 0
  fit : ∀ᶠ t in 𝓝 0, IPTBalance (upw w i t) d x (psOf x (γ t))

/-- `β` is a differentiable path of odds-weighted least-squares coefficients, `wols.py:201-330`. -/
structure RefitWLS (w : ι → ℝ) (i : ι) (sel : ι → Bool) (x : ι → κ → ℝ) (y : ι → ℝ) (γ β : ℝ → κ → ℝ) : Prop where
  diff : ∀ k, DifferentiableAt ℝ (fun t => β t k) 0
  fit : ∀ᶠ t in 𝓝 0, NormalEq (fun j => upw w i t j * (psOf x (γ t) j / (1 - psOf x (γ t) j))) sel x y (β t)

/-- Direction in which a path of coefficients moves. -/
noncomputable def vel (β : ℝ → κ → ℝ) (k : κ) : ℝ := _root_.deriv (fun t => β t k) 0

lemma RefitWLS.at0 {w : ι → ℝ} {i : ι} {sel : ι → Bool} {x : ι → κ → ℝ} {y : ι → ℝ} {γ β : ℝ → κ → ℝ}
    (h : RefitWLS w i sel x y γ β) : NormalEq (fun j => w j * (psOf x (γ 0) j / (1 - psOf x (γ 0) j))) sel x y (β 0) := by
  have := h.fit.self_of_nhds
  rw [upw_zero] at this
  exact this

/-- With the odds-weighted regression and an intercept the scores have no first-order effect on a comparison component. -/
lemma score_term_zero (d post : ι → Bool) (pre : Bool) (q : ι → ℝ) (hq : ∀ j, (1 - ind d j) * q j = if cellSel d post pre false j then 1 else 0)
    (y w ps : ι → ℝ) (x : ι → κ → ℝ) (β : κ → ℝ) (one : κ) (hone : ∀ j, x j one = 1)
    (hn : NormalEq (fun j => w j * (ps j / (1 - ps j))) (cellSel d post pre false) x y β) (k : κ) :
    mean (fun j => (wContRC d (fun _ => true) ps w q j * ((y j - fitted x β j)
              - hmean (wContRC d (fun _ => true) ps w q) (fun j => y j - fitted x β j))) * x j k) = 0 := by
  have key : ∀ l, mean (fun j => wContRC d (fun _ => true) ps w q j * (y j - fitted x β j) * x j l) = 0 := by
    intro l
    have hl := hn l
    rw [Finset.sum_filter] at hl
    unfold mean
    rw [show (∑ j, wContRC d (fun _ => true) ps w q j * (y j - fitted x β j) * x j l) = 0 from ?_, zero_div]
    refine Eq.trans ?_ hl
    refine Finset.sum_congr rfl fun j _ => ?_
    have e : wContRC d (fun _ => true) ps w q j = w j * (ps j / (1 - ps j)) * ((1 - ind d j) * q j) := by
      unfold wContRC; simp [ind]; ring
    rw [e, hq]
    by_cases hj : cellSel d post pre false j = true
    · simp only [hj, if_true, mul_one]; unfold fitted; ring
    · simp [hj]
  have h1 : hmean (wContRC d (fun _ => true) ps w q) (fun j => y j - fitted x β j) = 0 := by
    unfold hmean
    rw [mean_div']
    have := key one
    simp only [hone, mul_one] at this
    rw [this, zero_div]
  rw [h1]
  simpa using key k

/-- The improved estimator for repeated cross-sections: exact distance between the derivative of the estimate (scores and
regressions refitted) and the reported influence value, for designs with an intercept and without trimming. -/
theorem C72_imp_rc_gap (d post : ι → Bool) (y w : ι → ℝ) (x : ι → κ → ℝ) (β0 β1 γ : ℝ → κ → ℝ) (i : ι)
    (one : κ) (hone : ∀ j, x j one = 1) (hγ : RefitIPT w i d x γ)
    (h0 : RefitWLS w i (cellSel d post true false) x y γ β0) (h1 : RefitWLS w i (cellSel d post false false) x y γ β1)
    (hT1 : mean (wTreatRC d (fun _ => true) w (postK post)) ≠ 0) (hT0 : mean (wTreatRC d (fun _ => true) w (preK post)) ≠ 0)
    (hC1 : mean (wContRC d (fun _ => true) (psOf x (γ 0)) w (postK post)) ≠ 0)
    (hC0 : mean (wContRC d (fun _ => true) (psOf x (γ 0)) w (preK post)) ≠ 0) :
    HasDerivAt (fun t => tradRC d (fun _ => true) post (psOf x (γ t)) (fitted x (β0 t)) (fitted x (β1 t)) y (upw w i t))
      (impRCIF d (fun _ => true) post (psOf x (γ 0)) (fitted x (β0 0)) (fitted x (β1 0)) y w i
        + dot (vel β0) (fun k => xbar (wTreatRC d (fun _ => true) w (preK post)) x k
            - xbar (wContRC d (fun _ => true) (psOf x (γ 0)) w (preK post)) x k)
        - dot (vel β1) (fun k => xbar (wTreatRC d (fun _ => true) w (postK post)) x k
            - xbar (wContRC d (fun _ => true) (psOf x (γ 0)) w (postK post)) x k)) 0 := by
  have hb0 : ∀ k, HasDerivAt (fun t => β0 t k) (vel β0 k) 0 := fun k => (h0.diff k).hasDerivAt
  have hb1 : ∀ k, HasDerivAt (fun t => β1 t k) (vel β1 k) 0 := fun k => (h1.diff k).hasDerivAt
  have hg : ∀ k, HasDerivAt (fun t => γ t k) (vel γ k) 0 := fun k => (hγ.diff k).hasDerivAt
  refine (tradRC_path d _ post y w x i hb0 hb1 hg hT1 hT0 hC1 hC0).congr_deriv ?_
  have q1 := fun j => sel_post d post false j
  have q0 := fun j => sel_pre d post false j
  simp only [Bool.false_eq_true, if_false] at q1 q0
  simp only [score_term_zero d post false (postK post) q1 y w (psOf x (γ 0)) x (β1 0) one hone h1.at0,
    score_term_zero d post true (preK post) q0 y w (psOf x (γ 0)) x (β0 0) one hone h0.at0, zero_div, dot_sub]
  have z : dot (vel γ) (fun _ => (0:ℝ)) = 0 := by unfold dot; simp
  rw [z]
  ring

/-- **C72 (improved DR, repeated cross-sections, covariates balanced in each period).** -/
theorem C72_imp_rc_balanced (d post : ι → Bool) (y w : ι → ℝ) (x : ι → κ → ℝ) (β0 β1 γ : ℝ → κ → ℝ) (i : ι)
    (one : κ) (hone : ∀ j, x j one = 1) (hγ : RefitIPT w i d x γ)
    (h0 : RefitWLS w i (cellSel d post true false) x y γ β0) (h1 : RefitWLS w i (cellSel d post false false) x y γ β1)
    (hT1 : mean (wTreatRC d (fun _ => true) w (postK post)) ≠ 0) (hT0 : mean (wTreatRC d (fun _ => true) w (preK post)) ≠ 0)
    (hC1 : mean (wContRC d (fun _ => true) (psOf x (γ 0)) w (postK post)) ≠ 0)
    (hC0 : mean (wContRC d (fun _ => true) (psOf x (γ 0)) w (preK post)) ≠ 0)
    (bal0 : ∀ k, xbar (wTreatRC d (fun _ => true) w (preK post)) x k
            = xbar (wContRC d (fun _ => true) (psOf x (γ 0)) w (preK post)) x k)
    (bal1 : ∀ k, xbar (wTreatRC d (fun _ => true) w (postK post)) x k
            = xbar (wContRC d (fun _ => true) (psOf x (γ 0)) w (postK post)) x k) :
    HasDerivAt (fun t => tradRC d (fun _ => true) post (psOf x (γ t)) (fitted x (β0 t)) (fitted x (β1 t)) y (upw w i t))
      (impRCIF d (fun _ => true) post (psOf x (γ 0)) (fitted x (β0 0)) (fitted x (β1 0)) y w i) 0 := by
  refine (C72_imp_rc_gap d post y w x β0 β1 γ i one hone hγ h0 h1 hT1 hT0 hC1 hC0).congr_deriv ?_
  simp only [bal0, bal1, sub_self]
  have z : ∀ b : κ → ℝ, dot b (fun _ => (0:ℝ)) = 0 := by intro b; unfold dot; simp
  rw [z, z]
  ring

/-- The same for the improved locally efficient estimator; `δ0`, `δ1` are the treated arm's regressions. -/
theorem C72_imp_local_rc_gap (d post : ι → Bool) (y w : ι → ℝ) (x : ι → κ → ℝ) (β0 β1 δ0 δ1 γ : ℝ → κ → ℝ) (i : ι)
    (one : κ) (hone : ∀ j, x j one = 1) (hγ : RefitIPT w i d x γ)
    (h0 : RefitWLS w i (cellSel d post true false) x y γ β0) (h1 : RefitWLS w i (cellSel d post false false) x y γ β1)
    (g0 : RefitOLS w i (cellSel d post true true) x y δ0) (g1 : RefitOLS w i (cellSel d post false true) x y δ1)
    (hT : mean (fun j => w j * ind d j) ≠ 0)
    (hT1 : mean (wTreatRC d (fun _ => true) w (postK post)) ≠ 0) (hT0 : mean (wTreatRC d (fun _ => true) w (preK post)) ≠ 0)
    (hC1 : mean (wContRC d (fun _ => true) (psOf x (γ 0)) w (postK post)) ≠ 0)
    (hC0 : mean (wContRC d (fun _ => true) (psOf x (γ 0)) w (preK post)) ≠ 0) :
    HasDerivAt (fun t => drRC d (fun _ => true) post (psOf x (γ t)) (fitted x (β0 t)) (fitted x (β1 t)) (fitted x (δ0 t))
        (fitted x (δ1 t)) y (upw w i t))
      (impLocalRCIF d (fun _ => true) post (psOf x (γ 0)) (fitted x (β0 0)) (fitted x (β1 0)) (fitted x (δ0 0))
          (fitted x (δ1 0)) y w i
        + dot (vel β0) (fun k => xbar (fun j => w j * ind d j) x k
            - xbar (wContRC d (fun _ => true) (psOf x (γ 0)) w (preK post)) x k)
        - dot (vel β1) (fun k => xbar (fun j => w j * ind d j) x k
            - xbar (wContRC d (fun _ => true) (psOf x (γ 0)) w (postK post)) x k)
        + dot (vel δ1) (fun k => xbar (fun j => w j * ind d j) x k - xbar (wTreatRC d (fun _ => true) w (postK post)) x k)
        - dot (vel δ0) (fun k => xbar (fun j => w j * ind d j) x k - xbar (wTreatRC d (fun _ => true) w (preK post)) x k)) 0 := by
  have ht := C72_imp_rc_gap d post y w x β0 β1 γ i one hone hγ h0 h1 hT1 hT0 hC1 hC0
  have hb0 : ∀ k, HasDerivAt (fun t => β0 t k) (vel β0 k) 0 := fun k => (h0.diff k).hasDerivAt
  have hb1 : ∀ k, HasDerivAt (fun t => β1 t k) (vel β1 k) 0 := fun k => (h1.diff k).hasDerivAt
  have hd0 : ∀ k, HasDerivAt (fun t => δ0 t k) (vel δ0 k) 0 := fun k => (g0.diff k).hasDerivAt
  have hd1 : ∀ k, HasDerivAt (fun t => δ1 t k) (vel δ1 k) 0 := fun k => (g1.diff k).hasDerivAt
  have hq1 := fun k => (hb1 k).fun_sub (hd1 k)
  have hq0 := fun k => (hb0 k).fun_sub (hd0 k)
  have e1 : ∀ (u q : ι → ℝ), wTreatRC d (fun _ => true) u q = fun j => u j * (ind d j * q j) := by
    intro u q; funext j; unfold wTreatRC; simp only [ind, if_true]; ring
  have T1' := hT1
  have T0' := hT0
  rw [e1] at T1' T0'
  have a1 := hasDerivAt_treatComp w (fun j => ind d j) (fun _ => 0) i x (β := fun t k => β1 t k - δ1 t k) hq1 hT
  have a2 := hasDerivAt_treatComp w (fun j => ind d j * postK post j) (fun _ => 0) i x
    (β := fun t k => β1 t k - δ1 t k) hq1 T1'
  have a3 := hasDerivAt_treatComp w (fun j => ind d j) (fun _ => 0) i x (β := fun t k => β0 t k - δ0 t k) hq0 hT
  have a4 := hasDerivAt_treatComp w (fun j => ind d j * preK post j) (fun _ => 0) i x
    (β := fun t k => β0 t k - δ0 t k) hq0 T0'
  have h := (ht.fun_add (a1.fun_sub a2)).fun_sub (a3.fun_sub a4)
  have ef : ∀ (b c : κ → ℝ) (j : ι), 0 - fitted x (fun k => b k - c k) j = fitted x c j - fitted x b j := by
    intro b c j
    unfold fitted
    rw [zero_sub, ← Finset.sum_neg_distrib, ← Finset.sum_sub_distrib]
    exact Finset.sum_congr rfl fun k _ => by ring
  simp only [ef] at h
  have w1 : ∀ u : ι → ℝ, (fun j => ind (fun _ => true) j * u j * ind d j) = fun j => u j * ind d j := by
    intro u; funext j; simp [ind]
  have w2q : ∀ u q : ι → ℝ, (fun j => ind (fun _ => true) j * u j * ind d j * q j) =
      fun j => u j * (ind d j * q j) := by
    intro u q; funext j; simp only [ind, if_true]; ring
  have w2 : ∀ u : ι → ℝ, (fun j => ind (fun _ => true) j * u j * ind d j * postK post j) =
      fun j => u j * (ind d j * postK post j) := fun u => w2q u (postK post)
  have w3 : ∀ u : ι → ℝ, (fun j => ind (fun _ => true) j * u j * ind d j * (1 - postK post j)) =
      fun j => u j * (ind d j * preK post j) := by
    intro u; exact (w2q u (preK post))
  unfold drRC
  simp only [hmean_eq_wmean, w1, w2, w3]
  refine h.congr_deriv ?_
  unfold impLocalRCIF
  have c1 : ∀ j, ind (fun _ => true) j * w j * ind d j * (1 - postK post j) = w j * (ind d j * preK post j) :=
    fun j => congrFun (w3 w) j
  have c2 : ∀ j, ind (fun _ => true) j * w j * ind d j * postK post j = w j * (ind d j * postK post j) :=
    fun j => congrFun (w2 w) j
  have c3 : ∀ j, ind (fun _ => true) j * w j * ind d j = w j * ind d j := fun j => congrFun (w1 w) j
  simp only [c1, c2]
  simp only [c3, dot_sub_left, dot_sub, lead, hmean_eq_wmean, e1]
  have ex : ∀ (b : κ → ℝ) (u : ι → ℝ), dot b (xbar u x) = dot b (fun k => mean (fun j => u j * x j k)) / mean u := by
    intro b u; unfold xbar; rw [dot_xdiv]
  simp only [ex]
  ring

/-- **C72 (improved locally efficient DR, repeated cross-sections, covariates balanced in each period and stable over
periods).** -/
theorem C72_imp_local_rc_balanced (d post : ι → Bool) (y w : ι → ℝ) (x : ι → κ → ℝ) (β0 β1 δ0 δ1 γ : ℝ → κ → ℝ) (i : ι)
    (one : κ) (hone : ∀ j, x j one = 1) (hγ : RefitIPT w i d x γ)
    (h0 : RefitWLS w i (cellSel d post true false) x y γ β0) (h1 : RefitWLS w i (cellSel d post false false) x y γ β1)
    (g0 : RefitOLS w i (cellSel d post true true) x y δ0) (g1 : RefitOLS w i (cellSel d post false true) x y δ1)
    (hT : mean (fun j => w j * ind d j) ≠ 0)
    (hT1 : mean (wTreatRC d (fun _ => true) w (postK post)) ≠ 0) (hT0 : mean (wTreatRC d (fun _ => true) w (preK post)) ≠ 0)
    (hC1 : mean (wContRC d (fun _ => true) (psOf x (γ 0)) w (postK post)) ≠ 0)
    (hC0 : mean (wContRC d (fun _ => true) (psOf x (γ 0)) w (preK post)) ≠ 0)
    (balC0 : ∀ k, xbar (wContRC d (fun _ => true) (psOf x (γ 0)) w (preK post)) x k = xbar (fun j => w j * ind d j) x k)
    (balC1 : ∀ k, xbar (wContRC d (fun _ => true) (psOf x (γ 0)) w (postK post)) x k = xbar (fun j => w j * ind d j) x k)
    (balT0 : ∀ k, xbar (wTreatRC d (fun _ => true) w (preK post)) x k = xbar (fun j => w j * ind d j) x k)
    (balT1 : ∀ k, xbar (wTreatRC d (fun _ => true) w (postK post)) x k = xbar (fun j => w j * ind d j) x k) :
    HasDerivAt (fun t => drRC d (fun _ => true) post (psOf x (γ t)) (fitted x (β0 t)) (fitted x (β1 t)) (fitted x (δ0 t))
        (fitted x (δ1 t)) y (upw w i t))
      (impLocalRCIF d (fun _ => true) post (psOf x (γ 0)) (fitted x (β0 0)) (fitted x (β1 0)) (fitted x (δ0 0))
        (fitted x (δ1 0)) y w i) 0 := by
  refine (C72_imp_local_rc_gap d post y w x β0 β1 δ0 δ1 γ i one hone hγ h0 h1 g0 g1 hT hT1 hT0 hC1 hC0).congr_deriv ?_
  simp only [balC0, balC1, balT0, balT1, sub_self]
  have z : ∀ b : κ → ℝ, dot b (fun _ => (0:ℝ)) = 0 := by intro b; unfold dot; simp
  rw [z, z, z, z]
  ring

end Verif.DR
