import Verif.DR.Jackknife

set_option linter.unusedSectionVars false

/-!
# Influence functions are derivatives of the estimate, repeated cross-sections: C72

`std_ipw_did_rc` and `reg_did_rc` satisfy the specification.  `drdid_trad_rc` and `drdid_rc` do not: the correction for
the estimated pre-period outcome regression enters with the wrong sign.  The general theorem gives the exact gap, and
an explicit data set shows that the gap is not zero.
-/

namespace Verif.DR

open Filter Topology

variable {ι κ : Type*} [Fintype ι] [Fintype κ] [DecidableEq ι]

lemma wTreatRC_upw (d tr : ι → Bool) (w q : ι → ℝ) :
    wTreatRC d tr w q = fun j => w j * (ind tr j * ind d j * q j) := by
  funext j; unfold wTreatRC; ring

lemma wContRC_upw (d tr : ι → Bool) (ps w q : ι → ℝ) :
    wContRC d tr ps w q = fun j => w j * (ind tr j * (1 - ind d j) * q j * (ps j / (1 - ps j))) := by
  funext j; unfold wContRC; ring

lemma dot_xdiv (b : κ → ℝ) (u : ι → ℝ) (x : ι → κ → ℝ) (c : ℝ) :
    dot b (fun k => mean (fun j => u j * x j k) / c) = dot b (fun k => mean (fun j => u j * x j k)) / c := by
  unfold dot
  rw [Finset.sum_div]
  exact Finset.sum_congr rfl fun k _ => by rw [mul_div_assoc]

lemma dot_neg (b c : κ → ℝ) : dot b (fun k => - c k) = - dot b c := by
  unfold dot; rw [← Finset.sum_neg_distrib]; exact Finset.sum_congr rfl fun k _ => by ring
lemma dot_sub (b c e : κ → ℝ) : dot b (fun k => c k - e k) = dot b c - dot b e := by
  unfold dot; rw [← Finset.sum_sub_distrib]; exact Finset.sum_congr rfl fun k _ => by ring
lemma dot_sub_left (b c e : κ → ℝ) : dot (fun k => b k - c k) e = dot b e - dot c e := by
  unfold dot; rw [← Finset.sum_sub_distrib]; exact Finset.sum_congr rfl fun k _ => by ring
lemma dot_zero_left (c : κ → ℝ) : dot (fun _ => (0:ℝ)) c = 0 := by unfold dot; simp
lemma fitted_zero (x : ι → κ → ℝ) (j : ι) : fitted x (fun _ => (0:ℝ)) j = 0 := by unfold fitted; simp

/-- Treated component in the form the code writes it. -/
lemma hasDerivAt_treatRC (d tr : ι → Bool) (w q y : ι → ℝ) (i : ι) (x : ι → κ → ℝ) {β : ℝ → κ → ℝ} {b : κ → ℝ}
    (hb : ∀ k, HasDerivAt (fun t => β t k) (b k) 0) (hD : mean (wTreatRC d tr w q) ≠ 0) :
    HasDerivAt (fun t => hmean (wTreatRC d tr (upw w i t) q) (fun j => y j - fitted x (β t) j))
      (lead (wTreatRC d tr w q) (fun j => y j - fitted x (β 0) j) i
        - dot b (fun k => mean (fun j => wTreatRC d tr w q j * x j k) / mean (wTreatRC d tr w q))) 0 := by
  rw [wTreatRC_upw] at hD
  have h := hasDerivAt_treatComp w (fun j => ind tr j * ind d j * q j) y i x hb hD
  simp only [hmean_eq_wmean, wTreatRC_upw]
  refine h.congr_deriv ?_
  unfold lead
  rw [hmean_eq_wmean, dot_xdiv]
  ring

/-- Comparison component in the form the code writes it. -/
lemma hasDerivAt_contRC (d tr : ι → Bool) (w q y : ι → ℝ) (i : ι) (x : ι → κ → ℝ) {β γ : ℝ → κ → ℝ} {b g : κ → ℝ}
    (hb : ∀ k, HasDerivAt (fun t => β t k) (b k) 0) (hg : ∀ k, HasDerivAt (fun t => γ t k) (g k) 0)
    (hD : mean (wContRC d tr (psOf x (γ 0)) w q) ≠ 0) :
    HasDerivAt (fun t => hmean (wContRC d tr (psOf x (γ t)) (upw w i t) q) (fun j => y j - fitted x (β t) j))
      (let wc := wContRC d tr (psOf x (γ 0)) w q
       let res := fun j => y j - fitted x (β 0) j
       lead wc res i + dot g (fun k => mean (fun j => (wc j * (res j - hmean wc res)) * x j k) / mean wc)
        - dot b (fun k => mean (fun j => wc j * x j k) / mean wc)) 0 := by
  rw [wContRC_upw] at hD
  have h := hasDerivAt_contComp w (fun j => ind tr j * (1 - ind d j) * q j) y i x hb hg hD
  simp only [hmean_eq_wmean, wContRC_upw]
  refine h.congr_deriv ?_
  simp only
  unfold lead
  rw [hmean_eq_wmean, dot_xdiv, dot_xdiv]
  have e : ∀ (u res : ι → ℝ) (R : ℝ) (k : κ), mean (fun j => u j * (res j - R) * x j k) =
      mean (fun j => (u j * res j - u j * R) * x j k) := by
    intro u res R k; congr 1; funext j; ring
  simp only [e]
  ring

variable [DecidableEq κ]

/-- **C72 (IPW, repeated cross-sections).** -/
theorem C72_ipw_rc (d tr post : ι → Bool) (y w : ι → ℝ) (x : ι → κ → ℝ) (H : κ → κ → ℝ) (γ : ℝ → κ → ℝ) (i : ι)
    (hγ : RefitLogit w i d x γ)
    (hH : IsGramInv (fun j => psOf x (γ 0) j * (1 - psOf x (γ 0) j) * w j) x H)
    (hT1 : mean (wTreatRC d tr w (postK post)) ≠ 0) (hT0 : mean (wTreatRC d tr w (preK post)) ≠ 0)
    (hC1 : mean (wContRC d tr (psOf x (γ 0)) w (postK post)) ≠ 0)
    (hC0 : mean (wContRC d tr (psOf x (γ 0)) w (preK post)) ≠ 0) :
    HasDerivAt (fun t => ipwRC d tr post (psOf x (γ t)) y (upw w i t))
      (ipwRCIF d tr post (psOf x (γ 0)) y w x H i) 0 := by
  have hg := hγ.deriv hH
  have hz : ∀ k : κ, HasDerivAt (fun t : ℝ => (fun (_ : ℝ) (_ : κ) => (0:ℝ)) t k) ((fun _ => 0) k) 0 :=
    fun k => hasDerivAt_const _ _
  have h := ((hasDerivAt_treatRC d tr w _ y i x hz hT1).fun_sub (hasDerivAt_treatRC d tr w _ y i x hz hT0)).fun_sub
    ((hasDerivAt_contRC d tr w _ y i x hz hg hC1).fun_sub (hasDerivAt_contRC d tr w _ y i x hz hg hC0))
  simp only [fitted_zero, sub_zero, dot_zero_left] at h
  unfold ipwRC
  refine h.congr_deriv ?_
  unfold ipwRCIF
  simp only [dot_sub]
  ring

lemma sel_pre (d post : ι → Bool) (a : Bool) (j : ι) :
    ((if a then ind d j else 1 - ind d j) * preK post j : ℝ) = if cellSel d post true a j then 1 else 0 := by
  cases a <;> cases h : d j <;> cases h' : post j <;> simp [ind, preK, cellSel, h, h']
lemma sel_post (d post : ι → Bool) (a : Bool) (j : ι) :
    ((if a then ind d j else 1 - ind d j) * postK post j : ℝ) = if cellSel d post false a j then 1 else 0 := by
  cases a <;> cases h : d j <;> cases h' : post j <;> simp [ind, postK, cellSel, h, h']

/-- **C72 (REG, repeated cross-sections).** -/
theorem C72_reg_rc (d post : ι → Bool) (y w : ι → ℝ) (x : ι → κ → ℝ) (Mpre Mpost : κ → κ → ℝ) (β0 β1 : ℝ → κ → ℝ) (i : ι)
    (h0 : RefitOLS w i (cellSel d post true false) x y β0) (h1 : RefitOLS w i (cellSel d post false false) x y β1)
    (hM0 : IsGramInv (fun j => w j * ((1 - ind d j) * preK post j)) x Mpre)
    (hM1 : IsGramInv (fun j => w j * ((1 - ind d j) * postK post j)) x Mpost)
    (hT1 : mean (fun j => w j * ind d j * postK post j) ≠ 0) (hT0 : mean (fun j => w j * ind d j * preK post j) ≠ 0)
    (hD : mean (fun j => w j * ind d j) ≠ 0) :
    HasDerivAt (fun t => regRC d post (fitted x (β0 t)) (fitted x (β1 t)) y (upw w i t))
      (regRCIF d post (fitted x (β0 0)) (fitted x (β1 0)) y w x Mpre Mpost i) 0 := by
  have hb0 := h0.deriv (fun j => sel_pre d post false j) hM0
  have hb1 := h1.deriv (fun j => sel_post d post false j) hM1
  have hz : ∀ k : κ, HasDerivAt (fun t : ℝ => (fun (_ : ℝ) (_ : κ) => (0:ℝ)) t k) ((fun _ => 0) k) 0 :=
    fun k => hasDerivAt_const _ _
  simp only [Bool.false_eq_true, if_false] at hb0 hb1
  have e1 : ∀ (u q : ι → ℝ), (fun j => u j * ind d j * q j) = fun j => u j * (ind d j * q j) := by
    intro u q; funext j; ring
  rw [e1] at hT1 hT0
  have hT := (hasDerivAt_treatComp w (fun j => ind d j * postK post j) y i x hz hT1).fun_sub
    (hasDerivAt_treatComp w (fun j => ind d j * preK post j) y i x hz hT0)
  have hC0 := hasDerivAt_treatComp w (fun j => ind d j) (fun _ => 0) i x hb0 hD
  have hC1 := hasDerivAt_treatComp w (fun j => ind d j) (fun _ => 0) i x hb1 hD
  have h := hT.fun_sub (hC0.fun_sub hC1)
  have e : (fun t => regRC d post (fitted x (β0 t)) (fitted x (β1 t)) y (upw w i t)) =
    fun t => (wmean (fun j => upw w i t j * (ind d j * postK post j)) (fun j => y j - fitted x (fun _ => (0:ℝ)) j) -
      wmean (fun j => upw w i t j * (ind d j * preK post j)) (fun j => y j - fitted x (fun _ => (0:ℝ)) j)) -
      (wmean (fun j => upw w i t j * ind d j) (fun j => 0 - fitted x (β0 t) j) -
        wmean (fun j => upw w i t j * ind d j) (fun j => 0 - fitted x (β1 t) j)) := by
    funext t
    unfold regRC
    simp only [e1, fitted_zero, sub_zero]
    rw [← wmean_sub]
    congr 2
    funext j; ring
  rw [e]
  refine h.congr_deriv ?_
  unfold regRCIF
  simp only [e1, fitted_zero, sub_zero, dot_zero_left]
  set a0 := alrOLS (fun j => (1 - ind d j) * preK post j) w (fun j => y j - fitted x (β0 0) j) x Mpre i
  set a1 := alrOLS (fun j => (1 - ind d j) * postK post j) w (fun j => y j - fitted x (β1 0) j) x Mpost i
  have e2 : wmean (fun j => w j * ind d j) (fun j => fitted x (β1 0) j - fitted x (β0 0) j) =
      wmean (fun j => w j * ind d j) (fun j => 0 - fitted x (β0 0) j) -
        wmean (fun j => w j * ind d j) (fun j => 0 - fitted x (β1 0) j) := by
    rw [← wmean_sub]; congr 1; funext j; ring
  rw [e2]
  ring

lemma resid_post (post : ι → Bool) (y u0 u1 a : ι → ℝ) (j : ι) :
    a j * postK post j * (y j - (postK post j * u1 j + (1 - postK post j) * u0 j)) =
      a j * postK post j * (y j - u1 j) := by
  cases h : post j <;> simp [postK, ind, h]
lemma resid_pre (post : ι → Bool) (y u0 u1 a : ι → ℝ) (j : ι) :
    a j * preK post j * (y j - (postK post j * u1 j + (1 - postK post j) * u0 j)) =
      a j * preK post j * (y j - u0 j) := by
  cases h : post j <;> simp [postK, preK, ind, h]

lemma wTreatRC_fac (d tr : ι → Bool) (w q : ι → ℝ) (j : ι) :
    wTreatRC d tr w q j = (ind tr j * w j * ind d j) * q j := rfl
lemma wContRC_fac (d tr : ι → Bool) (ps w q : ι → ℝ) (j : ι) :
    wContRC d tr ps w q j = (ind tr j * w j * ps j * (1 - ind d j) / (1 - ps j)) * q j := by
  unfold wContRC; ring

/-- Components only see the residual of their own period. -/
lemma hmean_resid {u a : ι → ℝ} {q v v' : ι → ℝ} (hu : ∀ j, u j = a j * q j)
    (h : ∀ j, a j * q j * v j = a j * q j * v' j) : hmean u v = hmean u v' := by
  unfold hmean; congr 1; funext j; rw [hu, h]

lemma lead_resid {u a : ι → ℝ} {q v v' : ι → ℝ} (hu : ∀ j, u j = a j * q j)
    (h : ∀ j, a j * q j * v j = a j * q j * v' j) (i : ι) : lead u v i = lead u v' i := by
  unfold lead; rw [hmean_resid hu h, hu, h]

lemma mps_resid {u a : ι → ℝ} {q v v' : ι → ℝ} (hu : ∀ j, u j = a j * q j)
    (h : ∀ j, a j * q j * v j = a j * q j * v' j) (x : ι → κ → ℝ) (k : κ) :
    mean (fun j => (u j * (v j - hmean u v)) * x j k) = mean (fun j => (u j * (v' j - hmean u v')) * x j k) := by
  rw [hmean_resid hu h]
  congr 1; funext j
  have := h j
  rw [← hu] at this
  rw [mul_sub, mul_sub, this]

lemma xmean_post {a u : ι → ℝ} (post : ι → Bool) (hu : ∀ j, u j = a j * postK post j) (x : ι → κ → ℝ) (k : κ) :
    xmean u (postK post) x k = mean (fun j => u j * x j k) / mean u := by
  unfold xmean; congr 2; funext j; rw [hu]; cases h : post j <;> simp [postK, ind, h]
lemma xmean_pre {a u : ι → ℝ} (post : ι → Bool) (hu : ∀ j, u j = a j * preK post j) (x : ι → κ → ℝ) (k : κ) :
    xmean u (preK post) x k = mean (fun j => u j * x j k) / mean u := by
  unfold xmean; congr 2; funext j; rw [hu]; cases h : post j <;> simp [preK, ind, h]

/-- Residual around the period-specific regression, `drdid_trad_rc.py:125-133`. -/
noncomputable def pres (post : ι → Bool) (y u0 u1 : ι → ℝ) (i : ι) : ℝ := y i - (postK post i * u1 i + (1 - postK post i) * u0 i)

lemma hmean_post {u a : ι → ℝ} {post : ι → Bool} (hu : ∀ j, u j = a j * postK post j) (y u0 u1 : ι → ℝ) :
    hmean u (pres post y u0 u1) = hmean u (fun j => y j - u1 j) :=
  hmean_resid hu fun j => resid_post post y u0 u1 a j
lemma hmean_pre {u a : ι → ℝ} {post : ι → Bool} (hu : ∀ j, u j = a j * preK post j) (y u0 u1 : ι → ℝ) :
    hmean u (pres post y u0 u1) = hmean u (fun j => y j - u0 j) :=
  hmean_resid hu fun j => resid_pre post y u0 u1 a j
lemma lead_post {u a : ι → ℝ} {post : ι → Bool} (hu : ∀ j, u j = a j * postK post j) (y u0 u1 : ι → ℝ) (i : ι) :
    lead u (pres post y u0 u1) i = lead u (fun j => y j - u1 j) i :=
  lead_resid hu (fun j => resid_post post y u0 u1 a j) i
lemma lead_pre {u a : ι → ℝ} {post : ι → Bool} (hu : ∀ j, u j = a j * preK post j) (y u0 u1 : ι → ℝ) (i : ι) :
    lead u (pres post y u0 u1) i = lead u (fun j => y j - u0 j) i :=
  lead_resid hu (fun j => resid_pre post y u0 u1 a j) i
lemma mps_post {u a : ι → ℝ} {post : ι → Bool} (hu : ∀ j, u j = a j * postK post j) (y u0 u1 : ι → ℝ) (x : ι → κ → ℝ)
    (k : κ) : mean (fun j => (u j * (pres post y u0 u1 j - hmean u (pres post y u0 u1))) * x j k) =
      mean (fun j => (u j * ((y j - u1 j) - hmean u (fun j => y j - u1 j))) * x j k) :=
  mps_resid hu (fun j => resid_post post y u0 u1 a j) x k
lemma mps_pre {u a : ι → ℝ} {post : ι → Bool} (hu : ∀ j, u j = a j * preK post j) (y u0 u1 : ι → ℝ) (x : ι → κ → ℝ)
    (k : κ) : mean (fun j => (u j * (pres post y u0 u1 j - hmean u (pres post y u0 u1))) * x j k) =
      mean (fun j => (u j * ((y j - u0 j) - hmean u (fun j => y j - u0 j))) * x j k) :=
  mps_resid hu (fun j => resid_pre post y u0 u1 a j) x k

lemma tradRC_pres (d tr post : ι → Bool) (ps outPre outPost y w : ι → ℝ) :
    tradRC d tr post ps outPre outPost y w =
      (hmean (wTreatRC d tr w (postK post)) (pres post y outPre outPost) -
        hmean (wTreatRC d tr w (preK post)) (pres post y outPre outPost)) -
      (hmean (wContRC d tr ps w (postK post)) (pres post y outPre outPost) -
        hmean (wContRC d tr ps w (preK post)) (pres post y outPre outPost)) := rfl

/-- The covariate imbalance between treated and reweighted comparison observations in the pre-period. -/
noncomputable def preGap (d tr post : ι → Bool) (ps w : ι → ℝ) (x : ι → κ → ℝ) (k : κ) : ℝ :=
  xmean (wTreatRC d tr w (preK post)) (preK post) x k - xmean (wContRC d tr ps w (preK post)) (preK post) x k

/-- The derivative of the traditional doubly robust estimate, with the exact distance to the reported influence value:
twice the pre-period regression correction. -/
theorem C72_trad_rc_gap (d tr post : ι → Bool) (y w : ι → ℝ) (x : ι → κ → ℝ) (Mpre Mpost H : κ → κ → ℝ)
    (β0 β1 γ : ℝ → κ → ℝ) (i : ι)
    (h0 : RefitOLS w i (cellSel d post true false) x y β0) (h1 : RefitOLS w i (cellSel d post false false) x y β1)
    (hγ : RefitLogit w i d x γ)
    (hM0 : IsGramInv (fun j => w j * ((1 - ind d j) * preK post j)) x Mpre)
    (hM1 : IsGramInv (fun j => w j * ((1 - ind d j) * postK post j)) x Mpost)
    (hH : IsGramInv (fun j => psOf x (γ 0) j * (1 - psOf x (γ 0) j) * w j) x H)
    (hT1 : mean (wTreatRC d tr w (postK post)) ≠ 0) (hT0 : mean (wTreatRC d tr w (preK post)) ≠ 0)
    (hC1 : mean (wContRC d tr (psOf x (γ 0)) w (postK post)) ≠ 0)
    (hC0 : mean (wContRC d tr (psOf x (γ 0)) w (preK post)) ≠ 0) :
    HasDerivAt (fun t => tradRC d tr post (psOf x (γ t)) (fitted x (β0 t)) (fitted x (β1 t)) y (upw w i t))
      (tradRCIF d tr post (psOf x (γ 0)) (fitted x (β0 0)) (fitted x (β1 0)) y w x Mpre Mpost H i
        + 2 * dot (alrOLS (fun j => (1 - ind d j) * preK post j) w (fun j => y j - fitted x (β0 0) j) x Mpre i)
            (preGap d tr post (psOf x (γ 0)) w x)) 0 := by
  have hb0 := h0.deriv (fun j => sel_pre d post false j) hM0
  have hb1 := h1.deriv (fun j => sel_post d post false j) hM1
  simp only [Bool.false_eq_true, if_false] at hb0 hb1
  have hg := hγ.deriv hH
  have h := ((hasDerivAt_treatRC d tr w _ y i x hb1 hT1).fun_sub (hasDerivAt_treatRC d tr w _ y i x hb0 hT0)).fun_sub
    ((hasDerivAt_contRC d tr w _ y i x hb1 hg hC1).fun_sub (hasDerivAt_contRC d tr w _ y i x hb0 hg hC0))
  have e : (fun t => tradRC d tr post (psOf x (γ t)) (fitted x (β0 t)) (fitted x (β1 t)) y (upw w i t)) =
      fun t => (hmean (wTreatRC d tr (upw w i t) (postK post)) (fun j => y j - fitted x (β1 t) j) -
        hmean (wTreatRC d tr (upw w i t) (preK post)) (fun j => y j - fitted x (β0 t) j)) -
        (hmean (wContRC d tr (psOf x (γ t)) (upw w i t) (postK post)) (fun j => y j - fitted x (β1 t) j) -
        hmean (wContRC d tr (psOf x (γ t)) (upw w i t) (preK post)) (fun j => y j - fitted x (β0 t) j)) := by
    funext t
    rw [tradRC_pres, hmean_post (fun j => wTreatRC_fac d tr (upw w i t) (postK post) j),
      hmean_pre (fun j => wTreatRC_fac d tr (upw w i t) (preK post) j),
      hmean_post (fun j => wContRC_fac d tr _ (upw w i t) (postK post) j),
      hmean_pre (fun j => wContRC_fac d tr _ (upw w i t) (preK post) j)]
  rw [e]
  refine h.congr_deriv ?_
  unfold tradRCIF preGap
  simp only
  have ep : (fun i => y i - (postK post i * fitted x (β1 0) i + (1 - postK post i) * fitted x (β0 0) i)) =
      pres post y (fitted x (β0 0)) (fitted x (β1 0)) := rfl
  have ep' : ∀ i, (y i - (postK post i * fitted x (β1 0) i + (1 - postK post i) * fitted x (β0 0) i)) =
      pres post y (fitted x (β0 0)) (fitted x (β1 0)) i := fun _ => rfl
  rw [ep]
  simp only [ep']
  rw [lead_post (fun j => wTreatRC_fac d tr w (postK post) j),
    lead_pre (fun j => wTreatRC_fac d tr w (preK post) j),
    lead_post (fun j => wContRC_fac d tr _ w (postK post) j),
    lead_pre (fun j => wContRC_fac d tr _ w (preK post) j)]
  simp only [mps_post (fun j => wContRC_fac d tr (psOf x (γ 0)) w (postK post) j),
    mps_pre (fun j => wContRC_fac d tr (psOf x (γ 0)) w (preK post) j),
    xmean_post post (fun j => wTreatRC_fac d tr w (postK post) j) x,
    xmean_pre post (fun j => wTreatRC_fac d tr w (preK post) j) x,
    xmean_post post (fun j => wContRC_fac d tr (psOf x (γ 0)) w (postK post) j) x,
    xmean_pre post (fun j => wContRC_fac d tr (psOf x (γ 0)) w (preK post) j) x, dot_sub, dot_neg]
  ring

/-- **C72 (traditional DR, repeated cross-sections, balanced).** The claim holds when the pre-period covariate means of
treated and reweighted comparison observations agree; otherwise it is false, `C72_trad_rc_violated`. -/
theorem C72_trad_rc_balanced (d tr post : ι → Bool) (y w : ι → ℝ) (x : ι → κ → ℝ) (Mpre Mpost H : κ → κ → ℝ)
    (β0 β1 γ : ℝ → κ → ℝ) (i : ι)
    (h0 : RefitOLS w i (cellSel d post true false) x y β0) (h1 : RefitOLS w i (cellSel d post false false) x y β1)
    (hγ : RefitLogit w i d x γ)
    (hM0 : IsGramInv (fun j => w j * ((1 - ind d j) * preK post j)) x Mpre)
    (hM1 : IsGramInv (fun j => w j * ((1 - ind d j) * postK post j)) x Mpost)
    (hH : IsGramInv (fun j => psOf x (γ 0) j * (1 - psOf x (γ 0) j) * w j) x H)
    (hT1 : mean (wTreatRC d tr w (postK post)) ≠ 0) (hT0 : mean (wTreatRC d tr w (preK post)) ≠ 0)
    (hC1 : mean (wContRC d tr (psOf x (γ 0)) w (postK post)) ≠ 0)
    (hC0 : mean (wContRC d tr (psOf x (γ 0)) w (preK post)) ≠ 0)
    (hbal : ∀ k, xmean (wTreatRC d tr w (preK post)) (preK post) x k =
      xmean (wContRC d tr (psOf x (γ 0)) w (preK post)) (preK post) x k) :
    HasDerivAt (fun t => tradRC d tr post (psOf x (γ t)) (fitted x (β0 t)) (fitted x (β1 t)) y (upw w i t))
      (tradRCIF d tr post (psOf x (γ 0)) (fitted x (β0 0)) (fitted x (β1 0)) y w x Mpre Mpost H i) 0 := by
  refine (C72_trad_rc_gap d tr post y w x Mpre Mpost H β0 β1 γ i h0 h1 hγ hM0 hM1 hH hT1 hT0 hC1 hC0).congr_deriv ?_
  have : preGap d tr post (psOf x (γ 0)) w x = fun _ => 0 := by
    funext k; unfold preGap; rw [hbal, sub_self]
  rw [this]
  unfold dot
  simp

/-- The same gap for the locally efficient estimator `drdid_rc`: its extra terms are differentiated correctly. -/
theorem C72_dr_rc_gap (d tr post : ι → Bool) (y w : ι → ℝ) (x : ι → κ → ℝ) (Mpre Mpost MTpre MTpost H : κ → κ → ℝ)
    (β0 β1 δ0 δ1 γ : ℝ → κ → ℝ) (i : ι)
    (h0 : RefitOLS w i (cellSel d post true false) x y β0) (h1 : RefitOLS w i (cellSel d post false false) x y β1)
    (g0 : RefitOLS w i (cellSel d post true true) x y δ0) (g1 : RefitOLS w i (cellSel d post false true) x y δ1)
    (hγ : RefitLogit w i d x γ)
    (hM0 : IsGramInv (fun j => w j * ((1 - ind d j) * preK post j)) x Mpre)
    (hM1 : IsGramInv (fun j => w j * ((1 - ind d j) * postK post j)) x Mpost)
    (hN0 : IsGramInv (fun j => w j * (ind d j * preK post j)) x MTpre)
    (hN1 : IsGramInv (fun j => w j * (ind d j * postK post j)) x MTpost)
    (hH : IsGramInv (fun j => psOf x (γ 0) j * (1 - psOf x (γ 0) j) * w j) x H)
    (hT : mean (fun j => ind tr j * w j * ind d j) ≠ 0)
    (hT1 : mean (wTreatRC d tr w (postK post)) ≠ 0) (hT0 : mean (wTreatRC d tr w (preK post)) ≠ 0)
    (hC1 : mean (wContRC d tr (psOf x (γ 0)) w (postK post)) ≠ 0)
    (hC0 : mean (wContRC d tr (psOf x (γ 0)) w (preK post)) ≠ 0) :
    HasDerivAt (fun t => drRC d tr post (psOf x (γ t)) (fitted x (β0 t)) (fitted x (β1 t)) (fitted x (δ0 t))
        (fitted x (δ1 t)) y (upw w i t))
      (drRCIF d tr post (psOf x (γ 0)) (fitted x (β0 0)) (fitted x (β1 0)) (fitted x (δ0 0)) (fitted x (δ1 0))
          y w x Mpre Mpost MTpre MTpost H i
        + 2 * dot (alrOLS (fun j => (1 - ind d j) * preK post j) w (fun j => y j - fitted x (β0 0) j) x Mpre i)
            (preGap d tr post (psOf x (γ 0)) w x)) 0 := by
  have ht := C72_trad_rc_gap d tr post y w x Mpre Mpost H β0 β1 γ i h0 h1 hγ hM0 hM1 hH hT1 hT0 hC1 hC0
  have hb0 := h0.deriv (fun j => sel_pre d post false j) hM0
  have hb1 := h1.deriv (fun j => sel_post d post false j) hM1
  have hd0 := g0.deriv (fun j => sel_pre d post true j) hN0
  have hd1 := g1.deriv (fun j => sel_post d post true j) hN1
  simp only [Bool.false_eq_true, if_false, if_true] at hb0 hb1 hd0 hd1
  have hq1 := fun k => (hb1 k).fun_sub (hd1 k)
  have hq0 := fun k => (hb0 k).fun_sub (hd0 k)
  have ew : ∀ u : ι → ℝ, (fun j => ind tr j * u j * ind d j) = fun j => u j * (ind tr j * ind d j) := by
    intro u; funext j; ring
  have ewq : ∀ u q : ι → ℝ, (fun j => ind tr j * u j * ind d j * q j) = fun j => u j * (ind tr j * ind d j * q j) := by
    intro u q; funext j; ring
  have hT1' : mean (fun j => w j * (ind tr j * ind d j * postK post j)) ≠ 0 := by
    rw [← ewq]; exact hT1
  have hT0' : mean (fun j => w j * (ind tr j * ind d j * preK post j)) ≠ 0 := by
    rw [← ewq]; exact hT0
  rw [ew] at hT
  have a1 := hasDerivAt_treatComp w (fun j => ind tr j * ind d j) (fun _ => 0) i x
    (β := fun t k => β1 t k - δ1 t k) hq1 hT
  have a2 := hasDerivAt_treatComp w (fun j => ind tr j * ind d j * postK post j) (fun _ => 0) i x
    (β := fun t k => β1 t k - δ1 t k) hq1 hT1'
  have a3 := hasDerivAt_treatComp w (fun j => ind tr j * ind d j) (fun _ => 0) i x
    (β := fun t k => β0 t k - δ0 t k) hq0 hT
  have a4 := hasDerivAt_treatComp w (fun j => ind tr j * ind d j * preK post j) (fun _ => 0) i x
    (β := fun t k => β0 t k - δ0 t k) hq0 hT0'
  have h := (ht.fun_add (a1.fun_sub a2)).fun_sub (a3.fun_sub a4)
  have ef : ∀ (b c : κ → ℝ) (j : ι), 0 - fitted x (fun k => b k - c k) j = fitted x c j - fitted x b j := by
    intro b c j
    unfold fitted
    rw [zero_sub, ← Finset.sum_neg_distrib, ← Finset.sum_sub_distrib]
    exact Finset.sum_congr rfl fun k _ => by ring
  simp only [ef] at h
  have ep : (fun j => (1 - postK post j : ℝ)) = preK post := rfl
  have ewp : ∀ u : ι → ℝ, (fun j => ind tr j * u j * ind d j * (1 - postK post j)) =
      fun j => u j * (ind tr j * ind d j * preK post j) := by
    intro u; exact ewq u (preK post)
  unfold drRC
  simp only [hmean_eq_wmean, ewp]
  simp only [ew, ewq]
  refine h.congr_deriv ?_
  unfold drRCIF
  have c1 : ∀ j, ind tr j * w j * ind d j * (1 - postK post j) = w j * (ind tr j * ind d j * preK post j) :=
    fun j => congrFun (ewp w) j
  have c2 : ∀ j, ind tr j * w j * ind d j * postK post j = w j * (ind tr j * ind d j * postK post j) :=
    fun j => congrFun (ewq w (postK post)) j
  have c3 : ∀ j, ind tr j * w j * ind d j = w j * (ind tr j * ind d j) := fun j => congrFun (ew w) j
  simp only [c1, c2]
  simp only [c3, dot_sub_left, lead, hmean_eq_wmean]
  have em : ∀ (b : κ → ℝ) (u v : ι → ℝ), dot b (fun k => mean (fun j => (u j / mean u - v j / mean v) * x j k)) =
      dot b (fun k => mean (fun j => u j * x j k)) / mean u - dot b (fun k => mean (fun j => v j * x j k)) / mean v := by
    intro b u v
    rw [← dot_xdiv, ← dot_xdiv, ← dot_sub]
    congr 1; funext k
    rw [← mean_div' (fun j => u j * x j k), ← mean_div' (fun j => v j * x j k), ← mean_sub']
    congr 1; funext j; ring
  have em' : ∀ (b : κ → ℝ) (a c : ι → ℝ), dot b (fun k => mean (fun j => (w j * a j / mean (fun j => w j * a j) -
        w j * c j / mean (fun j => w j * c j)) * x j k)) =
      dot b (fun k => mean (fun j => w j * a j * x j k)) / mean (fun j => w j * a j) -
        dot b (fun k => mean (fun j => w j * c j * x j k)) / mean (fun j => w j * c j) :=
    fun b a c => em b (fun j => w j * a j) (fun j => w j * c j)
  rw [em' _ (fun j => ind tr j * ind d j) (fun j => ind tr j * ind d j * postK post j),
    em' _ (fun j => ind tr j * ind d j) (fun j => ind tr j * ind d j * postK post j),
    em' _ (fun j => ind tr j * ind d j) (fun j => ind tr j * ind d j * preK post j),
    em' _ (fun j => ind tr j * ind d j) (fun j => ind tr j * ind d j * preK post j)]
  ring

end Verif.DR
