import Verif.DR.JackknifeRC
import Mathlib.Analysis.SpecialFunctions.Log.Deriv
import Mathlib.Data.Fin.VecNotation
import Mathlib.Algebra.BigOperators.Fin
import Mathlib.Tactic.NormNum

set_option linter.unusedSectionVars false

/-!
# C72: improved estimator, counterexample and satisfiable hypotheses
-/

namespace Verif.DR

open Filter Topology

section Imp
variable {ι κ : Type*} [Fintype ι] [Fintype κ] [DecidableEq ι]

/-- Inverse probability tilting balances the covariates of treated and odds-weighted comparison units; first-order
condition of the objective minimised in `pscore_ipt.py:185-246`. -/
def IPTBalance (w : ι → ℝ) (d : ι → Bool) (x : ι → κ → ℝ) (ps : ι → ℝ) : Prop :=
  ∀ k, ∑ j, w j * (if d j then 1 else - (ps j / (1 - ps j))) * x j k = 0

/-- **C72 (improved DR, panel).** The influence function of `drdid_imp_panel`, which contains no correction for
estimated nuisance coefficients, is nevertheless the derivative of the estimate along every differentiable path of
nuisance coefficients through the fitted ones, provided the fit satisfies the tilting and odds-weighted least-squares
conditions and no comparison unit is trimmed. -/
theorem C72_imp_panel (d : ι → Bool) (dy w : ι → ℝ) (x : ι → κ → ℝ) (β γ : ℝ → κ → ℝ) (i : ι)
    (hβd : ∀ k, DifferentiableAt ℝ (fun t => β t k) 0) (hγd : ∀ k, DifferentiableAt ℝ (fun t => γ t k) 0)
    (hβ : NormalEq (fun j => w j * (psOf x (γ 0) j / (1 - psOf x (γ 0) j))) (notB d) x dy (β 0))
    (hγ : IPTBalance w d x (psOf x (γ 0))) (hT : mean (fun j => ind d j * w j) ≠ 0) :
    HasDerivAt (fun t => impPanel d (fun _ => true) (psOf x (γ t)) (fitted x (β t)) dy (upw w i t))
      (impPanelIF d (fun _ => true) (psOf x (γ 0)) (fitted x (β 0)) dy w i) 0 := by
  have hb : ∀ k, HasDerivAt (fun t => β t k) (_root_.deriv (fun t => β t k) 0) 0 := fun k => (hβd k).hasDerivAt
  have hg : ∀ k, HasDerivAt (fun t => γ t k) (_root_.deriv (fun t => γ t k) 0) 0 := fun k => (hγd k).hasDerivAt
  set b : κ → ℝ := fun k => _root_.deriv (fun t => β t k) 0
  set g : κ → ℝ := fun k => _root_.deriv (fun t => γ t k) 0
  have ho : ∀ (z : ℝ) (D : ℝ), 1 - (1 - D) / (1 - logistic z) =
      (D - (1 - D) * (logistic z / (1 - logistic z))) := by
    intro z D
    have : 1 - logistic z ≠ 0 := by
      rw [one_sub_logistic]; positivity
    field_simp; ring
  have e : (fun t => impPanel d (fun _ => true) (psOf x (γ t)) (fitted x (β t)) dy (upw w i t)) =
      fun t => mean (fun j => upw w i t j * ((ind d j - (1 - ind d j) *
        (psOf x (γ t) j / (1 - psOf x (γ t) j))) * (dy j - fitted x (β t) j))) /
        mean (fun j => upw w i t j * ind d j) := by
    funext t
    unfold impPanel
    have e1 : (fun j => ind d j * upw w i t j) = fun j => upw w i t j * ind d j := by funext j; ring
    rw [e1]
    congr 2
    funext j
    unfold psOf
    rw [ho]
    simp [ind]
  rw [e]
  have hN := hasDerivAt_wsum w i (f := fun j t => (ind d j - (1 - ind d j) *
        (psOf x (γ t) j / (1 - psOf x (γ t) j))) * (dy j - fitted x (β t) j))
      (fun j => (((hasDerivAt_odds x hg j).const_mul (1 - ind d j)).const_sub (ind d j)).fun_mul
        ((hasDerivAt_fitted x hb j).const_sub (dy j)))
  have hD := hasDerivAt_wsum w i (f := fun j _ => ind d j) (fun j => hasDerivAt_const 0 (ind d j))
  have hT' : mean (fun j => w j * ind d j) ≠ 0 := by
    have e1 : (fun j => ind d j * w j) = fun j => w j * ind d j := by funext j; ring
    rw [← e1]; exact hT
  have h := hN.fun_div hD (by rw [upw_zero]; exact hT')
  refine h.congr_deriv ?_
  simp only [upw_zero]
  have z1 : mean (fun j => w j * (-((1 - ind d j) * (psOf x (γ 0) j / (1 - psOf x (γ 0) j) * fitted x g j)) *
      (dy j - fitted x (β 0) j))) = 0 := by
    have := mean_fitted (fun j => - (w j * (1 - ind d j) * (psOf x (γ 0) j / (1 - psOf x (γ 0) j)) *
      (dy j - fitted x (β 0) j))) x g
    have e2 : (fun j => w j * (-((1 - ind d j) * (psOf x (γ 0) j / (1 - psOf x (γ 0) j) * fitted x g j)) *
      (dy j - fitted x (β 0) j))) = fun j => - (w j * (1 - ind d j) * (psOf x (γ 0) j / (1 - psOf x (γ 0) j)) *
      (dy j - fitted x (β 0) j)) * fitted x g j := by funext j; ring
    rw [e2, this]
    unfold dot
    refine Finset.sum_eq_zero fun k _ => ?_
    have hk := hβ k
    have : mean (fun j => - (w j * (1 - ind d j) * (psOf x (γ 0) j / (1 - psOf x (γ 0) j)) *
      (dy j - fitted x (β 0) j)) * x j k) = 0 := by
      unfold mean
      rw [Finset.sum_filter] at hk
      rw [show (∑ j, - (w j * (1 - ind d j) * (psOf x (γ 0) j / (1 - psOf x (γ 0) j)) *
        (dy j - fitted x (β 0) j)) * x j k) = 0 from ?_, zero_div]
      rw [← neg_eq_zero, ← Finset.sum_neg_distrib]
      refine Eq.trans ?_ hk
      refine Finset.sum_congr rfl fun j _ => ?_
      rw [sel_notB]
      unfold fitted
      by_cases hj : notB d j = true
      · simp only [hj, if_true]; ring
      · simp only [hj]; simp
    exact mul_eq_zero_of_right _ this
  have z2 : mean (fun j => w j * ((ind d j - (1 - ind d j) * (psOf x (γ 0) j / (1 - psOf x (γ 0) j))) *
      -fitted x b j)) = 0 := by
    have := mean_neg_fitted (fun j => w j * (ind d j - (1 - ind d j) *
      (psOf x (γ 0) j / (1 - psOf x (γ 0) j)))) x b
    have e2 : (fun j => w j * ((ind d j - (1 - ind d j) * (psOf x (γ 0) j / (1 - psOf x (γ 0) j))) *
      -fitted x b j)) = fun j => w j * (ind d j - (1 - ind d j) *
      (psOf x (γ 0) j / (1 - psOf x (γ 0) j))) * -fitted x b j := by funext j; ring
    rw [e2, this]
    unfold dot
    rw [neg_eq_zero]
    refine Finset.sum_eq_zero fun k _ => ?_
    have hk := hγ k
    have : mean (fun j => w j * (ind d j - (1 - ind d j) * (psOf x (γ 0) j / (1 - psOf x (γ 0) j))) * x j k) = 0 := by
      unfold mean
      rw [show (∑ j, w j * (ind d j - (1 - ind d j) * (psOf x (γ 0) j / (1 - psOf x (γ 0) j))) * x j k) = 0 from ?_,
        zero_div]
      refine Eq.trans ?_ hk
      refine Finset.sum_congr rfl fun j _ => ?_
      cases hj : d j <;> simp [ind, hj]
    exact mul_eq_zero_of_right _ this
  have z : mean (fun j => w j * (-((1 - ind d j) * (psOf x (γ 0) j / (1 - psOf x (γ 0) j) * fitted x g j)) *
      (dy j - fitted x (β 0) j) + (ind d j - (1 - ind d j) * (psOf x (γ 0) j / (1 - psOf x (γ 0) j))) *
      -fitted x b j)) = 0 := by
    have := mean_add' (fun j => w j * (-((1 - ind d j) * (psOf x (γ 0) j / (1 - psOf x (γ 0) j) * fitted x g j)) *
      (dy j - fitted x (β 0) j))) (fun j => w j * ((ind d j - (1 - ind d j) *
      (psOf x (γ 0) j / (1 - psOf x (γ 0) j))) * -fitted x b j))
    rw [z1, z2, add_zero] at this
    refine Eq.trans ?_ this
    congr 1; funext j; ring
  have z3 : mean (fun j => w j * (0:ℝ)) = 0 := by simp [mean]
  rw [z, z3]
  unfold impPanelIF
  have e0 := congrFun e 0
  simp only [upw_zero] at e0
  rw [e0]
  have ei : ∀ j, (1 - (1 - ind d j) / (1 - psOf x (γ 0) j)) =
      (ind d j - (1 - ind d j) * (psOf x (γ 0) j / (1 - psOf x (γ 0) j))) := fun j => ho _ _
  have e1 : (fun j => ind d j * w j) = fun j => w j * ind d j := by funext j; ring
  simp only [ei, e1]
  have e5 : (ind (fun _ : ι => true) i : ℝ) = 1 := by simp [ind]
  simp only [e5, one_mul, mul_one]
  field_simp
  ring

end Imp

/-! ## Data sets -/

lemma logistic_log {r : ℝ} (hr : 0 < r) : logistic (Real.log r) = r / (1 + r) := by
  unfold logistic
  rw [Real.exp_neg, Real.exp_log hr]
  field_simp
  ring

/-- Seven observations without an intercept: treated pre; two treated post; comparison pre with `y = 1, -1` at `x = 1`
and one at `x = 0`; comparison post. -/
def vD : Fin 7 → Bool := ![true, true, true, false, false, false, false]
def vP : Fin 7 → Bool := ![false, true, true, false, false, false, true]
def vX (i : Fin 7) (_ : Unit) : ℝ := ![1, 1, 1, 1, 1, 0, 1] i
def vY : Fin 7 → ℝ := ![0, 0, 0, 1, -1, 0, 0]
def vW (_ : Fin 7) : ℝ := 1
noncomputable def vB0 (t : ℝ) (_ : Unit) : ℝ := 7 * t / (2 + 7 * t)
def vZ (_ : ℝ) (_ : Unit) : ℝ := 0
noncomputable def vG (t : ℝ) (_ : Unit) : ℝ := Real.log (3 / (3 + 7 * t))

lemma near : ∀ᶠ t : ℝ in 𝓝 0, -(1/7) < t := Ioi_mem_nhds (by norm_num)

lemma v_ols0 : RefitOLS vW 3 (cellSel vD vP true false) vX vY vB0 := by
  constructor
  · intro k
    unfold vB0
    exact ((differentiableAt_id.const_mul 7).div ((differentiableAt_id.const_mul 7).const_add 2) (by norm_num))
  · filter_upwards [near] with t ht
    have h2 : 2 + 7 * t ≠ 0 := by linarith
    intro k
    rw [Finset.sum_filter]
    simp [Fin.sum_univ_seven, cellSel, vD, vP, vX, vY, vW, vB0, upw]
    field_simp
    ring

lemma v_zero (i : Fin 7) (pre treat : Bool) (h : pre = false ∨ treat = true) :
    RefitOLS vW i (cellSel vD vP pre treat) vX vY vZ := by
  constructor
  · intro k; exact differentiableAt_const _
  · refine Eventually.of_forall fun t k => ?_
    apply Finset.sum_eq_zero
    intro j hj
    have : vY j = 0 := by
      fin_cases j <;> first | rfl | (rcases h with rfl | rfl <;> revert hj <;> simp [cellSel, vD, vP])
    simp [this, vZ]

lemma v_logit : RefitLogit vW 3 vD vX vG := by
  constructor
  · intro k
    unfold vG
    apply DifferentiableAt.log
    · exact (differentiableAt_const _).div ((differentiableAt_id.const_mul 7).const_add 3) (by norm_num)
    · norm_num
  · filter_upwards [near] with t ht
    intro k
    have h3 : 0 < 3 + 7 * t := by linarith
    have h6 : 6 + 7 * t ≠ 0 := by linarith
    have hl : logistic (Real.log (3 / (3 + 7 * t))) = 3 / (6 + 7 * t) := by
      rw [logistic_log (by positivity), div_eq_div_iff (by positivity) h6]; field_simp; ring
    simp [Fin.sum_univ_seven, vD, vX, vW, vG, upw, psOf, fitted, hl]
    field_simp
    ring

lemma v_ps (j : Fin 7) : psOf vX (vG 0) j = 1 / 2 := by
  have : fitted vX (vG 0) j = 0 := by simp [fitted, vG]
  unfold psOf logistic
  rw [this]
  norm_num

lemma v_psf : psOf vX (vG 0) = fun _ => 1 / 2 := funext v_ps

lemma v_M0 : IsGramInv (fun j => vW j * ((1 - ind vD j) * preK vP j)) vX (fun _ _ => 7 / 2) := by
  intro k m
  simp [mean, Fin.sum_univ_seven, vW, vD, vP, vX, ind, preK]
  norm_num
lemma v_M1 : IsGramInv (fun j => vW j * ((1 - ind vD j) * postK vP j)) vX (fun _ _ => 7) := by
  intro k m
  simp [mean, Fin.sum_univ_seven, vW, vD, vP, vX, ind, postK]
lemma v_N0 : IsGramInv (fun j => vW j * (ind vD j * preK vP j)) vX (fun _ _ => 7) := by
  intro k m
  simp [mean, Fin.sum_univ_seven, vW, vD, vP, vX, ind, preK]
lemma v_N1 : IsGramInv (fun j => vW j * (ind vD j * postK vP j)) vX (fun _ _ => 7 / 2) := by
  intro k m
  simp [mean, Fin.sum_univ_seven, vW, vD, vP, vX, ind, postK]
  norm_num
lemma v_H : IsGramInv (fun j => psOf vX (vG 0) j * (1 - psOf vX (vG 0) j) * vW j) vX (fun _ _ => 14 / 3) := by
  intro k m
  rw [v_psf]
  simp [mean, Fin.sum_univ_seven, vW, vX]
  norm_num
lemma v_T1 : mean (wTreatRC vD (fun _ => true) vW (postK vP)) ≠ 0 := by
  simp [mean, Fin.sum_univ_seven, wTreatRC, vW, vD, vP, ind, postK]
lemma v_T0 : mean (wTreatRC vD (fun _ => true) vW (preK vP)) ≠ 0 := by
  simp [mean, Fin.sum_univ_seven, wTreatRC, vW, vD, vP, ind, preK]
lemma v_T : mean (fun j => ind (fun _ => true) j * vW j * ind vD j) ≠ 0 := by
  simp [mean, Fin.sum_univ_seven, vW, vD, ind]
  norm_num
lemma v_C1 : mean (wContRC vD (fun _ => true) (psOf vX (vG 0)) vW (postK vP)) ≠ 0 := by
  rw [v_psf]
  simp [mean, Fin.sum_univ_seven, wContRC, vW, vD, vP, ind, postK]
  norm_num
lemma v_C0 : mean (wContRC vD (fun _ => true) (psOf vX (vG 0)) vW (preK vP)) ≠ 0 := by
  rw [v_psf]
  simp [mean, Fin.sum_univ_seven, wContRC, vW, vD, vP, ind, preK]
  norm_num

lemma v_gap : dot (alrOLS (fun j => (1 - ind vD j) * preK vP j) vW (fun j => vY j - fitted vX (vB0 0) j) vX
    (fun _ _ => 7 / 2) 3) (preGap vD (fun _ => true) vP (psOf vX (vG 0)) vW vX) = 7 / 6 := by
  rw [v_psf]
  simp [dot, alrOLS, preGap, xmean, mean, Fin.sum_univ_seven, wContRC, wTreatRC, vW, vD, vP, vX, vY, vB0, ind, preK,
    fitted]
  norm_num

/-- **C72 violated (traditional DR, repeated cross-sections).** On the seven-observation data set every hypothesis of
the specification holds, yet the reported influence value of observation 3 is not the derivative of the estimate. -/
theorem C72_trad_rc_violated : ∃ (d post : Fin 7 → Bool) (y w : Fin 7 → ℝ) (x : Fin 7 → Unit → ℝ)
    (Mpre Mpost H : Unit → Unit → ℝ) (β0 β1 γ : ℝ → Unit → ℝ) (i : Fin 7),
    (∀ j, 0 < w j) ∧
    RefitOLS w i (cellSel d post true false) x y β0 ∧ RefitOLS w i (cellSel d post false false) x y β1 ∧
    RefitLogit w i d x γ ∧
    IsGramInv (fun j => w j * ((1 - ind d j) * preK post j)) x Mpre ∧
    IsGramInv (fun j => w j * ((1 - ind d j) * postK post j)) x Mpost ∧
    IsGramInv (fun j => psOf x (γ 0) j * (1 - psOf x (γ 0) j) * w j) x H ∧
    ¬ HasDerivAt (fun t => tradRC d (fun _ => true) post (psOf x (γ t)) (fitted x (β0 t)) (fitted x (β1 t)) y
        (upw w i t))
      (tradRCIF d (fun _ => true) post (psOf x (γ 0)) (fitted x (β0 0)) (fitted x (β1 0)) y w x Mpre Mpost H i) 0 := by
  refine ⟨vD, vP, vY, vW, vX, _, _, _, vB0, vZ, vG, 3, fun _ => one_pos, v_ols0, v_zero 3 _ _ (Or.inl rfl), v_logit,
    v_M0, v_M1, v_H, fun h => ?_⟩
  have hg := C72_trad_rc_gap vD (fun _ => true) vP vY vW vX _ _ _ vB0 vZ vG 3 v_ols0 (v_zero 3 _ _ (Or.inl rfl))
    v_logit v_M0 v_M1 v_H v_T1 v_T0 v_C1 v_C0
  have := h.unique hg
  rw [v_gap] at this
  linarith

/-- **C72 violated (locally efficient DR, repeated cross-sections).** -/
theorem C72_dr_rc_violated : ∃ (d post : Fin 7 → Bool) (y w : Fin 7 → ℝ) (x : Fin 7 → Unit → ℝ)
    (Mpre Mpost MTpre MTpost H : Unit → Unit → ℝ) (β0 β1 δ0 δ1 γ : ℝ → Unit → ℝ) (i : Fin 7),
    (∀ j, 0 < w j) ∧
    RefitOLS w i (cellSel d post true false) x y β0 ∧ RefitOLS w i (cellSel d post false false) x y β1 ∧
    RefitOLS w i (cellSel d post true true) x y δ0 ∧ RefitOLS w i (cellSel d post false true) x y δ1 ∧
    RefitLogit w i d x γ ∧
    IsGramInv (fun j => w j * ((1 - ind d j) * preK post j)) x Mpre ∧
    IsGramInv (fun j => w j * ((1 - ind d j) * postK post j)) x Mpost ∧
    IsGramInv (fun j => w j * (ind d j * preK post j)) x MTpre ∧
    IsGramInv (fun j => w j * (ind d j * postK post j)) x MTpost ∧
    IsGramInv (fun j => psOf x (γ 0) j * (1 - psOf x (γ 0) j) * w j) x H ∧
    ¬ HasDerivAt (fun t => drRC d (fun _ => true) post (psOf x (γ t)) (fitted x (β0 t)) (fitted x (β1 t))
        (fitted x (δ0 t)) (fitted x (δ1 t)) y (upw w i t))
      (drRCIF d (fun _ => true) post (psOf x (γ 0)) (fitted x (β0 0)) (fitted x (β1 0)) (fitted x (δ0 0))
        (fitted x (δ1 0)) y w x Mpre Mpost MTpre MTpost H i) 0 := by
  refine ⟨vD, vP, vY, vW, vX, _, _, _, _, _, vB0, vZ, vZ, vZ, vG, 3, fun _ => one_pos, v_ols0,
    v_zero 3 _ _ (Or.inl rfl), v_zero 3 _ _ (Or.inr rfl), v_zero 3 _ _ (Or.inr rfl), v_logit,
    v_M0, v_M1, v_N0, v_N1, v_H, fun h => ?_⟩
  have hg := C72_dr_rc_gap vD (fun _ => true) vP vY vW vX _ _ _ _ _ vB0 vZ vZ vZ vG 3 v_ols0
    (v_zero 3 _ _ (Or.inl rfl)) (v_zero 3 _ _ (Or.inr rfl)) (v_zero 3 _ _ (Or.inr rfl))
    v_logit v_M0 v_M1 v_N0 v_N1 v_H v_T v_T1 v_T0 v_C1 v_C0
  have := h.unique hg
  rw [v_gap] at this
  linarith

/-! The hypotheses of the positive theorems hold on the same data. -/

example : HasDerivAt (fun t => ipwRC vD (fun _ => true) vP (psOf vX (vG t)) vY (upw vW 3 t))
    (ipwRCIF vD (fun _ => true) vP (psOf vX (vG 0)) vY vW vX (fun _ _ => 14 / 3) 3) 0 :=
  C72_ipw_rc _ _ _ _ _ _ _ _ _ v_logit v_H v_T1 v_T0 v_C1 v_C0

example : HasDerivAt (fun t => regRC vD vP (fitted vX (vB0 t)) (fitted vX (vZ t)) vY (upw vW 3 t))
    (regRCIF vD vP (fitted vX (vB0 0)) (fitted vX (vZ 0)) vY vW vX (fun _ _ => 7 / 2) (fun _ _ => 7) 3) 0 := by
  apply C72_reg_rc _ _ _ _ _ _ _ _ _ _ v_ols0 (v_zero 3 _ _ (Or.inl rfl)) v_M0 v_M1
  · simp [mean, Fin.sum_univ_seven, vW, vD, vP, ind, postK]
  · simp [mean, Fin.sum_univ_seven, vW, vD, vP, ind, preK]
  · simp [mean, Fin.sum_univ_seven, vW, vD, ind]; norm_num

/-- Panel data set without intercept: three treated, three comparison units at `x = 1`, one comparison unit at `x = 0`;
`dy` is zero except for two comparison units. -/
lemma p_ols : RefitOLS vW 3 (notB vD) vX vY (fun t _ => 7 * t / (3 + 7 * t)) := by
  constructor
  · intro k
    exact ((differentiableAt_id.const_mul 7).div ((differentiableAt_id.const_mul 7).const_add 3) (by norm_num))
  · filter_upwards [near] with t ht
    have h2 : 3 + 7 * t ≠ 0 := by linarith
    intro k
    rw [Finset.sum_filter]
    simp [Fin.sum_univ_seven, notB, vD, vX, vY, vW, upw]
    field_simp
    ring

lemma p_M : IsGramInv (fun j => vW j * (1 - ind vD j)) vX (fun _ _ => 7 / 3) := by
  intro k m
  simp [mean, Fin.sum_univ_seven, vW, vD, vX, ind]
  norm_num
lemma p_T : mean (wTreat vD (fun _ => true) vW) ≠ 0 := by
  simp [mean, Fin.sum_univ_seven, wTreat, vW, vD, ind]
  norm_num
lemma p_C : mean (wCont vD (fun _ => true) (psOf vX (vG 0)) vW) ≠ 0 := by
  rw [v_psf]
  simp [mean, Fin.sum_univ_seven, wCont, vW, vD, ind]
  norm_num

example : HasDerivAt (fun t => drPanel vD (fun _ => true) (psOf vX (vG t)) (fitted vX (fun _ => 7 * t / (3 + 7 * t)))
      vY (upw vW 3 t))
    (drPanelIF vD (fun _ => true) (psOf vX (vG 0)) (fitted vX (fun _ => 7 * 0 / (3 + 7 * 0))) vY vW vX
      (fun _ _ => 7 / 3) (fun _ _ => 14 / 3) 3) 0 :=
  C72_dr_panel _ _ _ _ _ _ _ _ _ _ p_ols v_logit p_M v_H p_T p_C

example : HasDerivAt (fun t => regPanel vD (fitted vX (fun _ => 7 * t / (3 + 7 * t))) vY (upw vW 3 t))
    (regPanelIF vD (fitted vX (fun _ => 7 * 0 / (3 + 7 * 0))) vY vW vX (fun _ _ => 7 / 3) 3) 0 := by
  apply C72_reg_panel _ _ _ _ _ _ _ p_ols p_M
  simp [mean, Fin.sum_univ_seven, vW, vD, ind]; norm_num

example : HasDerivAt (fun t => ipwPanel vD (fun _ => true) (psOf vX (vG t)) vY (upw vW 3 t))
    (ipwPanelIF vD (fun _ => true) (psOf vX (vG 0)) vY vW vX (fun _ _ => 14 / 3) 3) 0 :=
  C72_ipw_panel _ _ _ _ _ _ _ _ v_logit v_H p_T p_C

example : HasDerivAt (fun t => impPanel vD (fun _ => true) (psOf vX (vG t)) (fitted vX (fun _ => 7 * t / (3 + 7 * t)))
      vY (upw vW 3 t))
    (impPanelIF vD (fun _ => true) (psOf vX (vG 0)) (fitted vX (fun _ => 7 * 0 / (3 + 7 * 0))) vY vW 3) 0 := by
  refine C72_imp_panel _ _ _ _ (fun t _ => 7 * t / (3 + 7 * t)) _ _ p_ols.diff v_logit.diff ?_ ?_ ?_
  · intro k
    rw [Finset.sum_filter, v_psf]
    simp [Fin.sum_univ_seven, notB, vD, vX, vY, vW]
  · intro k
    rw [v_psf]
    simp [Fin.sum_univ_seven, vD, vX, vW]
    norm_num
  · simp [mean, Fin.sum_univ_seven, vW, vD, ind]; norm_num

/-- Balanced pre-period covariates: the same design with the `x = 0` observation moved to the post-period. -/
def bP : Fin 7 → Bool := ![false, true, true, false, false, true, true]

example : HasDerivAt (fun t => tradRC vD (fun _ => true) bP (psOf vX (vG t)) (fitted vX (vB0 t)) (fitted vX (vZ t)) vY
      (upw vW 3 t))
    (tradRCIF vD (fun _ => true) bP (psOf vX (vG 0)) (fitted vX (vB0 0)) (fitted vX (vZ 0)) vY vW vX
      (fun _ _ => 7 / 2) (fun _ _ => 7) (fun _ _ => 14 / 3) 3) 0 := by
  apply C72_trad_rc_balanced
  · constructor
    · exact v_ols0.diff
    · filter_upwards [near] with t ht
      have h2 : 2 + 7 * t ≠ 0 := by linarith
      intro k
      rw [Finset.sum_filter]
      simp [Fin.sum_univ_seven, cellSel, vD, bP, vX, vY, vW, vB0, upw]
      field_simp
      ring
  · constructor
    · intro k; exact differentiableAt_const _
    · refine Eventually.of_forall fun t k => ?_
      apply Finset.sum_eq_zero
      intro j hj
      have : vY j = 0 := by
        fin_cases j <;> first | rfl | (revert hj; simp [cellSel, vD, bP])
      simp [this, vZ]
  · exact v_logit
  · intro k m; simp [mean, Fin.sum_univ_seven, vW, vD, bP, vX, ind, preK]; norm_num
  · intro k m; simp [mean, Fin.sum_univ_seven, vW, vD, bP, vX, ind, postK]
  · exact v_H
  · simp [mean, Fin.sum_univ_seven, wTreatRC, vW, vD, bP, ind, postK]
  · simp [mean, Fin.sum_univ_seven, wTreatRC, vW, vD, bP, ind, preK]
  · rw [v_psf]; simp [mean, Fin.sum_univ_seven, wContRC, vW, vD, bP, ind, postK]; norm_num
  · rw [v_psf]; simp [mean, Fin.sum_univ_seven, wContRC, vW, vD, bP, ind, preK]; norm_num
  · intro k
    rw [v_psf]
    simp [xmean, mean, Fin.sum_univ_seven, wTreatRC, wContRC, vW, vD, bP, vX, ind, preK]
    try norm_num

end Verif.DR
