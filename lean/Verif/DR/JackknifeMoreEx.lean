import Verif.DR.JackknifeMore

set_option linter.unusedSectionVars false
set_option linter.unusedSimpArgs false

/-!
# C72: data sets for the remaining two-period estimators
-/

namespace Verif.DR

open Filter Topology

/-! ## Horvitz–Thompson -/

/-- One observation in each of the four cells, intercept only, unequal weights of mean one. -/
def hD : Fin 4 → Bool := ![true, true, false, false]
def hPo : Fin 4 → Bool := ![false, true, false, true]
def hX (_ : Fin 4) (_ : Unit) : ℝ := 1
def hY : Fin 4 → ℝ := ![0, 1, 0, 0]
noncomputable def hW : Fin 4 → ℝ := ![1, 1 / 2, 3 / 2, 1]
noncomputable def hG (t : ℝ) (_ : Unit) : ℝ := Real.log (3 / (5 + 12 * t))

lemma h_logit : RefitLogit hW 2 hD hX hG := by
  constructor
  · intro k
    unfold hG
    apply DifferentiableAt.log
    · exact (differentiableAt_const _).div ((differentiableAt_id.const_mul 12).const_add 5) (by norm_num)
    · norm_num
  · have hn : ∀ᶠ t : ℝ in 𝓝 0, -(1/7) < t := near
    filter_upwards [hn] with t ht
    intro k
    have h3 : 0 < 5 + 12 * t := by linarith
    have h6 : 8 + 12 * t ≠ 0 := by linarith
    have hl : logistic (Real.log (3 / (5 + 12 * t))) = 3 / (8 + 12 * t) := by
      rw [logistic_log (by positivity), div_eq_div_iff (by positivity) h6]; field_simp; ring
    simp [Fin.sum_univ_four, hD, hX, hW, hG, upw, psOf, fitted, hl]
    field_simp
    ring

lemma h_psf : psOf hX (hG 0) = fun _ => 3 / 8 := by
  funext j
  have : fitted hX (hG 0) j = Real.log (3 / 5) := by simp [fitted, hG, hX]
  unfold psOf
  rw [this, logistic_log (by norm_num)]
  norm_num

lemma h_H : IsGramInv (fun j => psOf hX (hG 0) j * (1 - psOf hX (hG 0) j) * hW j) hX (fun _ _ => 64 / 15) := by
  intro k m
  rw [h_psf]
  simp [mean, Fin.sum_univ_four, hW, hX]
  norm_num

/-- **C72 violated (Horvitz–Thompson, repeated cross-sections, unequal weights).** -/
theorem C72_ht_rc_violated : ∃ (d post : Fin 4 → Bool) (y w : Fin 4 → ℝ) (x : Fin 4 → Unit → ℝ) (H : Unit → Unit → ℝ)
    (γ : ℝ → Unit → ℝ) (i : Fin 4), (∀ j, 0 < w j) ∧ mean w = 1 ∧ (∀ j k, x j k = 1) ∧ RefitLogit w i d x γ ∧
    IsGramInv (fun j => psOf x (γ 0) j * (1 - psOf x (γ 0) j) * w j) x H ∧
    ¬ HasDerivAt (fun t => htRC d (fun _ => true) post (psOf x (γ t)) y (normalize (upw w i t)))
      (htRCIF d (fun _ => true) post (psOf x (γ 0)) y w x H i) 0 := by
  have hm : mean hW = 1 := by simp [mean, Fin.sum_univ_four, hW]; norm_num
  refine ⟨hD, hPo, hY, hW, hX, _, hG, 2, ?_, hm, fun _ _ => rfl, h_logit, h_H, fun h => ?_⟩
  · intro j; fin_cases j <;> simp [hW]
  · have hg := C72_ht_rc_gap hD (fun _ => true) hPo hY hW hX _ hG 2 hm h_logit h_H
      (by simp [mean, Fin.sum_univ_four, hW, hD, ind]; norm_num)
      (by simp [mean, Fin.sum_univ_four, hW, hPo, postK, ind]; norm_num)
      (by simp [mean, Fin.sum_univ_four, hW, hPo, preK, ind]; norm_num)
    have := h.unique hg
    have ha : (hW 2 - 1) * htRC hD (fun _ => true) hPo (psOf hX (hG 0)) hY hW = 4 / 9 := by
      rw [h_psf]
      simp [htRC, htComp, wContRC, mean, Fin.sum_univ_four, hW, hD, hPo, hY, ind, postK, preK]
      norm_num
    rw [ha] at this
    linarith

example : HasDerivAt (fun t => htPanel vD (fun _ => true) (psOf vX (vG t)) vY (upw vW 3 t))
    (htPanelIF vD (fun _ => true) (psOf vX (vG 0)) vY vW vX (fun _ _ => 14 / 3) 3) 0 := by
  apply C72_ht_panel _ _ _ _ _ _ _ _ v_logit v_H
  simp [mean, Fin.sum_univ_seven, vW, vD, ind]; norm_num

example : HasDerivAt (fun t => htRC vD (fun _ => true) vP (psOf vX (vG t)) vY (normalize (upw (fun _ => 1) 3 t)))
    (htRCIF vD (fun _ => true) vP (psOf vX (vG 0)) vY (fun _ => 1) vX (fun _ _ => 14 / 3) 3) 0 :=
  C72_ht_rc_unweighted _ _ _ _ _ _ _ _ v_logit v_H ⟨0, rfl⟩ ⟨1, rfl⟩ ⟨0, rfl⟩

/-! ## Improved estimators -/

/-- Ten observations with an intercept and a binary covariate `z`: treated pre `z = 0,1`; treated post `z = 0,1,1`;
comparison pre `z = 1,1,0`; comparison post `z = 0,1`. -/
def iD : Fin 10 → Bool := ![true, true, true, true, true, false, false, false, false, false]
def iP : Fin 10 → Bool := ![false, false, true, true, true, false, false, false, true, true]
def iZ : Fin 10 → ℝ := ![0, 1, 0, 1, 1, 1, 1, 0, 0, 1]
def iX (j : Fin 10) (b : Bool) : ℝ := if b then iZ j else 1
def iY : Fin 10 → ℝ := ![0, 0, 0, 0, 0, 1, -1, 0, 0, 0]
def iW (_ : Fin 10) : ℝ := 1
noncomputable def iG (t : ℝ) (b : Bool) : ℝ := if b then Real.log (3 / (3 + 10 * t)) else 0
noncomputable def iB (t : ℝ) (b : Bool) : ℝ := if b then 10 * t / (2 + 10 * t) else 0
def iO (_ : ℝ) (_ : Bool) : ℝ := 0

lemma sum_ten (f : Fin 10 → ℝ) : ∑ j, f j = f 0 + f 1 + f 2 + f 3 + f 4 + f 5 + f 6 + f 7 + f 8 + f 9 := by
  simp only [Fin.sum_univ_succ, Fin.sum_univ_zero]
  simp only [Fin.succ_zero_eq_one, Fin.succ_one_eq_two]
  have : ∀ a b c d e f g h i j : ℝ, a + (b + (c + (d + (e + (f + (g + (h + (i + (j + 0))))))))) =
    a + b + c + d + e + f + g + h + i + j := by intros; ring
  exact this _ _ _ _ _ _ _ _ _ _

lemma i_near : ∀ᶠ t : ℝ in 𝓝 0, -(1/10) < t := Ioi_mem_nhds (by norm_num)

/-- Odds of the refitted scores. -/
lemma i_odds {t : ℝ} (ht : -(1/10) < t) (j : Fin 10) :
    psOf iX (iG t) j / (1 - psOf iX (iG t) j) = if iZ j = 1 then 3 / (3 + 10 * t) else 1 := by
  unfold psOf
  rw [odds_logistic]
  have h3 : 0 < 3 + 10 * t := by linarith
  fin_cases j <;> simp [fitted, iX, iG, iZ, Fintype.sum_bool, Real.exp_log, h3]

lemma i_ipt : RefitIPT iW 5 iD iX iG := by
  constructor
  · intro k
    cases k
    · simp [iG]
    · simp only [iG, if_true]
      apply DifferentiableAt.log
      · exact (differentiableAt_const _).div ((differentiableAt_id.const_mul 10).const_add 3) (by norm_num)
      · norm_num
  · filter_upwards [i_near] with t ht
    have h3 : 3 + 10 * t ≠ 0 := by linarith
    intro k
    simp only [i_odds ht]
    rw [sum_ten]
    cases k
    · simp [upw, iW, iD, iZ, iX]
      field_simp
      ring
    · simp [upw, iW, iD, iZ, iX]
      field_simp
      ring

lemma i_wls0 : RefitWLS iW 5 (cellSel iD iP true false) iX iY iG iB := by
  constructor
  · intro k
    cases k
    · simp [iB]
    · simp only [iB, if_true]
      exact ((differentiableAt_id.const_mul 10).div ((differentiableAt_id.const_mul 10).const_add 2) (by norm_num))
  · filter_upwards [i_near] with t ht
    have h3 : 3 + 10 * t ≠ 0 := by linarith
    have h2 : 2 + 10 * t ≠ 0 := by linarith
    intro k
    rw [Finset.sum_filter]
    simp only [i_odds ht]
    rw [sum_ten]
    cases k
    · simp [upw, iW, iD, iP, iZ, iX, iY, iB, cellSel, Fintype.sum_bool]
      field_simp
      ring
    · simp [upw, iW, iD, iP, iZ, iX, iY, iB, cellSel, Fintype.sum_bool]
      field_simp
      ring

lemma i_y0 (pre treat : Bool) (h : pre = false ∨ treat = true) (j : Fin 10) (hj : cellSel iD iP pre treat j = true) :
    iY j = 0 := by
  fin_cases j <;> first | rfl | (rcases h with rfl | rfl <;> revert hj <;> simp [cellSel, iD, iP])

lemma i_wls1 : RefitWLS iW 5 (cellSel iD iP false false) iX iY iG iO := by
  constructor
  · intro k; exact differentiableAt_const _
  · refine Eventually.of_forall fun t k => ?_
    apply Finset.sum_eq_zero
    intro j hj
    have := i_y0 false false (Or.inl rfl) j (by simpa using hj)
    simp [this, iO]

lemma i_ols (pre : Bool) : RefitOLS iW 5 (cellSel iD iP pre true) iX iY iO := by
  constructor
  · intro k; exact differentiableAt_const _
  · refine Eventually.of_forall fun t k => ?_
    apply Finset.sum_eq_zero
    intro j hj
    have := i_y0 pre true (Or.inr rfl) j (by simpa using hj)
    simp [this, iO]

lemma i_psf : psOf iX (iG 0) = fun _ => 1 / 2 := by
  funext j
  have : fitted iX (iG 0) j = 0 := by simp [fitted, iG, Fintype.sum_bool]
  unfold psOf logistic
  rw [this]
  norm_num

lemma i_vel0 : vel iB = fun b => if b then 5 else 0 := by
  funext b
  unfold vel
  cases b
  · simp [iB]
  · simp only [iB, if_true]
    have h1 : HasDerivAt (fun t : ℝ => 10 * t) 10 0 := by simpa using (hasDerivAt_id (0:ℝ)).const_mul 10
    have h := h1.fun_div (h1.const_add 2) (by norm_num)
    rw [h.deriv]
    norm_num

lemma vel_iO : vel iO = fun _ => 0 := by
  funext b; unfold vel iO; simp

section
attribute [local simp] mean sum_ten wTreatRC wContRC iW iD iP ind postK preK iX iZ xbar dot Fintype.sum_bool

lemma i_T1 : mean (wTreatRC iD (fun _ => true) iW (postK iP)) ≠ 0 := by simp; norm_num
lemma i_T0 : mean (wTreatRC iD (fun _ => true) iW (preK iP)) ≠ 0 := by simp <;> norm_num
lemma i_T : mean (fun j => iW j * ind iD j) ≠ 0 := by simp; norm_num
lemma i_C1 : mean (wContRC iD (fun _ => true) (psOf iX (iG 0)) iW (postK iP)) ≠ 0 := by rw [i_psf]; simp; norm_num
lemma i_C0 : mean (wContRC iD (fun _ => true) (psOf iX (iG 0)) iW (preK iP)) ≠ 0 := by rw [i_psf]; simp; norm_num

lemma i_gap : dot (vel iB) (fun k => xbar (wTreatRC iD (fun _ => true) iW (preK iP)) iX k
            - xbar (wContRC iD (fun _ => true) (psOf iX (iG 0)) iW (preK iP)) iX k) = -(5 / 6) := by
  rw [i_vel0, i_psf]; simp; norm_num

lemma i_gap' : dot (vel iB) (fun k => xbar (fun j => iW j * ind iD j) iX k
            - xbar (wContRC iD (fun _ => true) (psOf iX (iG 0)) iW (preK iP)) iX k) = -(1 / 3) := by
  rw [i_vel0, i_psf]; simp; norm_num
end

lemma dot_vel_iO (f : Bool → ℝ) : dot (vel iO) f = 0 := by rw [vel_iO]; simp [dot]

/-- **C72 violated (improved DR, repeated cross-sections).** Covariates are balanced over the pooled sample but not
within each period, so the regressions' estimation error matters and is missing from the influence values. -/
theorem C72_imp_rc_violated : ∃ (d post : Fin 10 → Bool) (y w : Fin 10 → ℝ) (x : Fin 10 → Bool → ℝ)
    (β0 β1 γ : ℝ → Bool → ℝ) (i : Fin 10), (∀ j, 0 < w j) ∧ (∀ j, x j false = 1) ∧ RefitIPT w i d x γ ∧
    RefitWLS w i (cellSel d post true false) x y γ β0 ∧ RefitWLS w i (cellSel d post false false) x y γ β1 ∧
    ¬ HasDerivAt (fun t => tradRC d (fun _ => true) post (psOf x (γ t)) (fitted x (β0 t)) (fitted x (β1 t)) y (upw w i t))
      (impRCIF d (fun _ => true) post (psOf x (γ 0)) (fitted x (β0 0)) (fitted x (β1 0)) y w i) 0 := by
  refine ⟨iD, iP, iY, iW, iX, iB, iO, iG, 5, fun _ => one_pos, fun j => by simp [iX], i_ipt, i_wls0, i_wls1, fun h => ?_⟩
  have hg := C72_imp_rc_gap iD iP iY iW iX iB iO iG 5 false (fun j => by simp [iX]) i_ipt i_wls0 i_wls1 i_T1 i_T0 i_C1 i_C0
  have := h.unique hg
  rw [i_gap, dot_vel_iO] at this
  linarith

/-- **C72 violated (improved locally efficient DR, repeated cross-sections).** -/
theorem C72_imp_local_rc_violated : ∃ (d post : Fin 10 → Bool) (y w : Fin 10 → ℝ) (x : Fin 10 → Bool → ℝ)
    (β0 β1 δ0 δ1 γ : ℝ → Bool → ℝ) (i : Fin 10), (∀ j, 0 < w j) ∧ (∀ j, x j false = 1) ∧ RefitIPT w i d x γ ∧
    RefitWLS w i (cellSel d post true false) x y γ β0 ∧ RefitWLS w i (cellSel d post false false) x y γ β1 ∧
    RefitOLS w i (cellSel d post true true) x y δ0 ∧ RefitOLS w i (cellSel d post false true) x y δ1 ∧
    ¬ HasDerivAt (fun t => drRC d (fun _ => true) post (psOf x (γ t)) (fitted x (β0 t)) (fitted x (β1 t)) (fitted x (δ0 t))
        (fitted x (δ1 t)) y (upw w i t))
      (impLocalRCIF d (fun _ => true) post (psOf x (γ 0)) (fitted x (β0 0)) (fitted x (β1 0)) (fitted x (δ0 0))
        (fitted x (δ1 0)) y w i) 0 := by
  refine ⟨iD, iP, iY, iW, iX, iB, iO, iO, iO, iG, 5, fun _ => one_pos, fun j => by simp [iX], i_ipt, i_wls0, i_wls1,
    i_ols true, i_ols false, fun h => ?_⟩
  have hg := C72_imp_local_rc_gap iD iP iY iW iX iB iO iO iO iG 5 false (fun j => by simp [iX]) i_ipt i_wls0 i_wls1
    (i_ols true) (i_ols false) i_T i_T1 i_T0 i_C1 i_C0
  have := h.unique hg
  rw [i_gap', dot_vel_iO, dot_vel_iO, dot_vel_iO] at this
  linarith

/-- One observation per cell of group, period and `z`: covariates balanced in each period. -/
def jD : Fin 8 → Bool := ![true, true, true, true, false, false, false, false]
def jP : Fin 8 → Bool := ![false, false, true, true, false, false, true, true]
def jZ : Fin 8 → ℝ := ![0, 1, 0, 1, 0, 1, 0, 1]
def jX (j : Fin 8) (b : Bool) : ℝ := if b then jZ j else 1
def jY : Fin 8 → ℝ := ![0, 3, 2, 5, 0, 0, 0, 0]
/-- Upweighting a treated observation of a cell `z = 1`: odds `(2 + 8t)/2` there. -/
noncomputable def jG (t : ℝ) (b : Bool) : ℝ := if b then Real.log (1 + 4 * t) else 0

section
attribute [local simp] mean wTreatRC wContRC jD jP ind postK preK jX jZ Fin.sum_univ_eight

lemma j_psf : psOf jX (jG 0) = fun _ => 1 / 2 := by
  funext j
  have : fitted jX (jG 0) j = 0 := by simp [fitted, jG, Fintype.sum_bool]
  unfold psOf logistic
  rw [this]
  norm_num

lemma j_ipt : RefitIPT (fun _ => 1) 3 jD jX jG := by
  constructor
  · intro k
    cases k
    · simp [jG]
    · simp only [jG, if_true]
      apply DifferentiableAt.log
      · exact (differentiableAt_id.const_mul 4).const_add 1
      · norm_num
  · filter_upwards [i_near] with t ht
    have h3 : 0 < 1 + 4 * t := by linarith
    have ho : ∀ j, psOf jX (jG t) j / (1 - psOf jX (jG t) j) = if jZ j = 1 then 1 + 4 * t else 1 := by
      intro j
      unfold psOf
      rw [odds_logistic]
      fin_cases j <;> simp [fitted, jG, Fintype.sum_bool, Real.exp_log, h3]
    intro k
    simp only [ho]
    cases k <;> simp [upw] <;> ring

lemma j_wls (pre : Bool) : RefitWLS (fun _ => 1) 3 (cellSel jD jP pre false) jX jY jG iO := by
  constructor
  · intro k; exact differentiableAt_const _
  · refine Eventually.of_forall fun t k => ?_
    apply Finset.sum_eq_zero
    intro j hj
    have : jY j = 0 := by fin_cases j <;> first | rfl | (cases pre <;> revert hj <;> simp [cellSel])
    simp [this, iO]

/-- The hypotheses of `C72_imp_rc_balanced` hold on a design with effects of 2 in both covariate cells. -/
example : HasDerivAt (fun t => tradRC jD (fun _ => true) jP (psOf jX (jG t)) (fitted jX (iO t)) (fitted jX (iO t)) jY
      (upw (fun _ => 1) 3 t))
    (impRCIF jD (fun _ => true) jP (psOf jX (jG 0)) (fitted jX (iO 0)) (fitted jX (iO 0)) jY (fun _ => 1) 3) 0 := by
  refine C72_imp_rc_balanced jD jP jY _ jX iO iO jG 3 false (fun j => by simp) j_ipt (j_wls true) (j_wls false)
    ?_ ?_ ?_ ?_ ?_ ?_
  · simp <;> norm_num
  · simp <;> norm_num
  · rw [j_psf]; simp; norm_num
  · rw [j_psf]; simp; norm_num
  · intro k; rw [j_psf]; cases k <;> simp [xbar] <;> norm_num
  · intro k; rw [j_psf]; cases k <;> simp [xbar] <;> norm_num

/-- The same design: the treated arm's regressions fit exactly. -/
example : HasDerivAt (fun t => drRC jD (fun _ => true) jP (psOf jX (jG t)) (fitted jX (iO t)) (fitted jX (iO t))
      (fitted jX (fun b => if b then 3 else 0)) (fitted jX (fun b => if b then 3 else 2)) jY (upw (fun _ => 1) 3 t))
    (impLocalRCIF jD (fun _ => true) jP (psOf jX (jG 0)) (fitted jX (iO 0)) (fitted jX (iO 0))
      (fitted jX (fun b => if b then 3 else 0)) (fitted jX (fun b => if b then 3 else 2)) jY (fun _ => 1) 3) 0 := by
  have ols : ∀ (pre : Bool) (c : ℝ) (_ : c = if pre then 0 else 2), RefitOLS (fun _ => 1) 3 (cellSel jD jP pre true) jX jY
      (fun _ b => if b then 3 else c) := by
    intro pre c hc
    constructor
    · intro k; exact differentiableAt_const _
    · refine Eventually.of_forall fun t k => ?_
      rw [Finset.sum_filter]
      cases pre <;> cases k <;> simp [cellSel, jY, Fintype.sum_bool, upw, hc] <;> norm_num
  refine C72_imp_local_rc_balanced jD jP jY _ jX iO iO (fun _ b => if b then 3 else 0) (fun _ b => if b then 3 else 2) jG 3
    false (fun j => by simp) j_ipt (j_wls true) (j_wls false) (ols true 0 rfl) (ols false 2 rfl) ?_ ?_ ?_ ?_ ?_ ?_ ?_ ?_ ?_
  · simp <;> norm_num
  · simp <;> norm_num
  · simp <;> norm_num
  · rw [j_psf]; simp; norm_num
  · rw [j_psf]; simp; norm_num
  · intro k; rw [j_psf]; cases k <;> simp [xbar] <;> norm_num
  · intro k; rw [j_psf]; cases k <;> simp [xbar] <;> norm_num
  · intro k; cases k <;> simp [xbar] <;> norm_num
  · intro k; cases k <;> simp [xbar] <;> norm_num

end

end Verif.DR
