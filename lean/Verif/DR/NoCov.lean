import Verif.DR.JackknifeMore

set_option linter.unusedSectionVars false
set_option linter.unusedSimpArgs false

/-!
# C263: without covariates all two-period estimators have the same influence function
-/

namespace Verif.DR.NoCov

variable {ι : Type*} [Fintype ι]

/-! ## Specification -/

/-- Influence function of the weighted average of `y` over the units satisfying `S`: the deviation from the average, with the unit's share of the weight of `S`, times
the number of units; 0 outside `S`. -/
noncomputable def avgIF (w : ι → ℝ) (S : ι → Prop) [DecidablePred S] (y : ι → ℝ) (i : ι) : ℝ :=
  if S i then (Fintype.card ι : ℝ) * (w i / ∑ j with S j, w j) * (y i - wavg w S y) else 0

/-- Influence function of the difference of mean changes. -/
noncomputable def did2IF (w : ι → ℝ) (d : ι → Bool) (dy : ι → ℝ) (i : ι) : ℝ :=
  avgIF w (fun i => d i = true) dy i - avgIF w (fun i => d i = false) dy i

/-- Influence function of the difference in differences of four means. -/
noncomputable def did4IF (w : ι → ℝ) (d post : ι → Bool) (y : ι → ℝ) (i : ι) : ℝ :=
  (avgIF w (fun i => d i = true ∧ post i = true) y i - avgIF w (fun i => d i = true ∧ post i = false) y i) -
    (avgIF w (fun i => d i = false ∧ post i = true) y i - avgIF w (fun i => d i = false ∧ post i = false) y i)

/-! ## Lemmas -/

theorem mean_mul (c : ℝ) (f : ι → ℝ) : mean (fun i => c * f i) = c * mean f := by
  unfold mean
  rw [← Finset.mul_sum, mul_div_assoc]

theorem mean_sub (f g : ι → ℝ) : mean (fun i => f i - g i) = mean f - mean g := by
  unfold mean
  rw [Finset.sum_sub_distrib, sub_div]

theorem mean_neg (f : ι → ℝ) : mean (fun i => - f i) = - mean f := by
  unfold mean
  rw [Finset.sum_neg_distrib, neg_div]

theorem mean_div (c : ℝ) (f : ι → ℝ) : mean (fun i => f i / c) = mean f / c := by
  unfold mean
  rw [← Finset.sum_div, div_right_comm]

theorem wmean_scale {c : ℝ} (hc : c ≠ 0) (v y : ι → ℝ) : wmean (fun i => c * v i) y = wmean v y := by
  unfold wmean
  simp only [mul_assoc]
  rw [mean_mul, mean_mul, mul_div_mul_left _ _ hc]

theorem wmean_sub_const {v : ι → ℝ} (hv : mean v ≠ 0) (y : ι → ℝ) (m : ℝ) : wmean v (fun i => y i - m) = wmean v y - m := by
  unfold wmean
  have : (fun i => v i * (y i - m)) = fun i => v i * y i - m * v i := by funext i; ring
  rw [this, mean_sub, mean_mul, sub_div, mul_div_assoc, div_self hv, mul_one]

theorem wmean_const {v : ι → ℝ} (hv : mean v ≠ 0) (m : ℝ) : wmean v (fun _ => m) = m := by
  unfold wmean
  have : (fun i => v i * m) = fun i => m * v i := by funext i; ring
  rw [this, mean_mul, mul_div_assoc, div_self hv, mul_one]

theorem hmean_eq (v y : ι → ℝ) : hmean v y = wmean v y := by
  unfold hmean wmean
  rw [mean_div]

theorem mean_res {v : ι → ℝ} (hv : mean v ≠ 0) (y : ι → ℝ) : mean (fun i => v i * (y i - wmean v y)) = 0 := by
  have : (fun i => v i * (y i - wmean v y)) = fun i => v i * y i - wmean v y * v i := by funext i; ring
  rw [this, mean_sub, mean_mul]
  unfold wmean
  rw [div_mul_cancel₀ _ hv, sub_self]

theorem card_ne {v : ι → ℝ} (hv : mean v ≠ 0) : (Fintype.card ι : ℝ) ≠ 0 := by
  intro h
  exact hv (by unfold mean; rw [h, div_zero])

/-- `avgIF` with an indicator. -/
theorem avgIF_eq (w : ι → ℝ) (S : ι → Prop) [DecidablePred S] (s : ι → ℝ) (hs : ∀ i, s i = if S i then 1 else 0) (y : ι → ℝ) (hv : mean (fun i => w i * s i) ≠ 0) (i : ι) :
    avgIF w S y i = w i * s i * (y i - wmean (fun i => w i * s i) y) / mean (fun i => w i * s i) := by
  have hn := card_ne hv
  have h1 : ∀ f : ι → ℝ, mean (fun i => w i * s i * f i) = (∑ j with S j, w j * f j) / (Fintype.card ι : ℝ) := fun f => by
    unfold mean
    congr 1
    rw [Finset.sum_filter]
    refine Finset.sum_congr rfl fun j _ => ?_
    dsimp only
    rw [hs j]
    split_ifs <;> simp
  have h2 : mean (fun i => w i * s i) = (∑ j with S j, w j) / (Fintype.card ι : ℝ) := by simpa using h1 fun _ => 1
  have h3 : wmean (fun i => w i * s i) y = wavg w S y := by
    unfold wmean wavg
    rw [h1, h2, div_div_div_cancel_right₀ hn]
  unfold avgIF
  rw [h3, h2, hs i]
  rw [h2] at hv
  have h4 : (∑ j with S j, w j) ≠ 0 := fun h => hv (by rw [h, zero_div])
  split_ifs
  · field_simp
  · simp

theorem alr_unit (sel w res : ι → ℝ) (x : ι → Unit → ℝ) (M : Unit → Unit → ℝ) (hx : ∀ i, x i () = 1) (i : ι) (k : Unit) :
    alrOLS sel w res x M i k = w i * sel i * res i * M () () := by
  unfold alrOLS
  simp [hx]

theorem ps_unit (d : ι → Bool) (ps w : ι → ℝ) (x : ι → Unit → ℝ) (H : Unit → Unit → ℝ) (hx : ∀ i, x i () = 1) (i : ι) (k : Unit) :
    alrPS d ps w x H i k = w i * (ind d i - ps i) * H () () := by
  unfold alrPS
  simp [hx]

theorem dot_unit (a b : Unit → ℝ) : dot a b = a () * b () := by simp [dot]

theorem gram_unit {v : ι → ℝ} {x : ι → Unit → ℝ} {M : Unit → Unit → ℝ} (hx : ∀ i, x i () = 1) (h : IsGramInv v x M) : mean v * M () () = 1 := by
  have := h () ()
  simpa [hx] using this

/-- A regression on the intercept fits the weighted mean. -/
theorem fit_unit {w s : ι → ℝ} {sel : ι → Bool} {x : ι → Unit → ℝ} {y : ι → ℝ} {β : Unit → ℝ} (hx : ∀ i, x i () = 1) (hs : ∀ i, s i = if sel i = true then 1 else 0)
    (hv : mean (fun i => w i * s i) ≠ 0) (h : NormalEq w sel x y β) : fitted x β = fun _ => wmean (fun i => w i * s i) y := by
  have h0 := h ()
  simp only [hx, Finset.univ_unique, PUnit.default_eq_unit, Finset.sum_singleton, one_mul, mul_one] at h0
  have h1 : mean (fun i => w i * s i * (y i - β ())) = 0 := by
    unfold mean
    rw [show (∑ i, w i * s i * (y i - β ())) = 0 from ?_, zero_div]
    rw [← h0, Finset.sum_filter]
    refine Finset.sum_congr rfl fun j _ => ?_
    rw [hs j]
    split_ifs <;> simp
  have h2 : wmean (fun i => w i * s i) (fun i => y i - β ()) = 0 := by rw [wmean, h1, zero_div]
  rw [wmean_sub_const hv] at h2
  funext i
  simp only [fitted, hx, Finset.univ_unique, PUnit.default_eq_unit, Finset.sum_singleton, one_mul]
  linarith

/-! ## Panel -/

/-- The fits of the panel estimators without covariates: an intercept, weight in both arms, the regression among the comparison units, a constant score `p` below the trimming
level (`tr`), the inverse Gram matrix `M`. -/
structure PanelFit (w : ι → ℝ) (d tr : ι → Bool) (dy : ι → ℝ) (x : ι → Unit → ℝ) (β : Unit → ℝ) (ps : ι → ℝ) (p : ℝ) (M : Unit → Unit → ℝ) : Prop where
  intercept : ∀ i, x i () = 1
  treated : mean (fun i => w i * ind d i) ≠ 0
  controls : mean (fun i => w i * (1 - ind d i)) ≠ 0
  normal : NormalEq w (notB d) x dy β
  score : ∀ i, ps i = p
  pos : p ≠ 0
  lt : p ≠ 1
  kept : ∀ i, tr i = true
  gram : IsGramInv (fun i => w i * (1 - ind d i)) x M

section
variable {w : ι → ℝ} {d tr : ι → Bool} {dy : ι → ℝ} {x : ι → Unit → ℝ} {β : Unit → ℝ} {ps : ι → ℝ} {p : ℝ} {M : Unit → Unit → ℝ} (h : PanelFit w d tr dy x β ps p M)
include h

theorem did2_eq (i : ι) : did2IF w d dy i = w i * ind d i * (dy i - wmean (fun i => w i * ind d i) dy) / mean (fun i => w i * ind d i) -
    w i * (1 - ind d i) * (dy i - wmean (fun i => w i * (1 - ind d i)) dy) / mean (fun i => w i * (1 - ind d i)) := by
  unfold did2IF
  rw [avgIF_eq w _ (ind d) (fun i => by unfold ind; rfl) dy h.treated, avgIF_eq w _ (fun i => 1 - ind d i) (fun i => by unfold ind; cases d i <;> simp) dy h.controls]

theorem out_eq : fitted x β = fun _ => wmean (fun i => w i * (1 - ind d i)) dy :=
  fit_unit h.intercept (fun i => by unfold notB ind; cases d i <;> simp) h.controls h.normal

theorem wt_eq : wTreat d tr w = fun i => w i * ind d i := by
  funext i
  simp [wTreat, ind, h.kept i]

theorem wc_eq : wCont d tr ps w = fun i => p / (1 - p) * (w i * (1 - ind d i)) := by
  funext i
  simp only [wCont, h.score i, ind, h.kept i, if_true]
  ring

theorem ratio_ne : p / (1 - p) ≠ 0 := div_ne_zero h.pos (sub_ne_zero.2 h.lt.symm)

/-- **C263 (outcome regression).** -/
theorem C263_reg (i : ι) : regPanelIF d (fitted x β) dy w x M i = did2IF w d dy i := by
  have hg := gram_unit h.intercept h.gram
  have h1 := h.treated
  have h0 := h.controls
  rw [did2_eq h, out_eq h]
  unfold regPanelIF
  simp only [dot_unit, alr_unit _ _ _ _ _ h.intercept, wmean_const h1, h.intercept, mul_one, sub_self, zero_add]
  have hM : M () () = (mean fun i => w i * (1 - ind d i))⁻¹ := eq_inv_of_mul_eq_one_right hg
  rw [hM]
  field_simp

/-- **C263 (doubly robust).**  Whatever the matrix used for the score. -/
theorem C263_dr (H : Unit → Unit → ℝ) (i : ι) : drPanelIF d tr ps (fitted x β) dy w x M H i = did2IF w d dy i := by
  have hg := gram_unit h.intercept h.gram
  have h1 := h.treated
  have h0 := h.controls
  have hr := ratio_ne h
  rw [did2_eq h, out_eq h]
  unfold drPanelIF
  simp only [wt_eq h, wc_eq h, dot_unit, alr_unit _ _ _ _ _ h.intercept, ps_unit _ _ _ _ _ h.intercept, h.intercept, mul_one, wmean_scale hr, wmean_sub_const h1,
    wmean_sub_const h0, sub_self, mul_zero, sub_zero, mean_mul]
  have hz : (mean fun i => p / (1 - p) * (w i * (1 - ind d i)) * (dy i - wmean (fun i => w i * (1 - ind d i)) dy)) = 0 := by
    simp only [mul_assoc (p / (1 - p))]
    rw [mean_mul, mean_res h0, mul_zero]
  have hM : M () () = (mean fun i => w i * (1 - ind d i))⁻¹ := eq_inv_of_mul_eq_one_right hg
  rw [hz, hM]
  field_simp
  ring

/-- **C263 (inverse probability weighting).** -/
theorem C263_ipw (H : Unit → Unit → ℝ) (i : ι) : ipwPanelIF d tr ps dy w x H i = did2IF w d dy i := by
  have h1 := h.treated
  have h0 := h.controls
  have hr := ratio_ne h
  rw [did2_eq h]
  unfold ipwPanelIF
  have e1 : (mean fun i => w i * ind d i * dy i / mean fun i => w i * ind d i) = wmean (fun i => w i * ind d i) dy := hmean_eq _ _
  have e0 : (mean fun i => p / (1 - p) * (w i * (1 - ind d i)) * dy i / mean fun i => p / (1 - p) * (w i * (1 - ind d i))) = wmean (fun i => w i * (1 - ind d i)) dy := by
    rw [← wmean_scale hr]
    exact hmean_eq _ _
  have hz : (mean fun i => p / (1 - p) * (w i * (1 - ind d i)) * (dy i - wmean (fun i => w i * (1 - ind d i)) dy)) = 0 := by
    simp only [mul_assoc (p / (1 - p))]
    rw [mean_mul, mean_res h0, mul_zero]
  simp only [wt_eq h, wc_eq h, dot_unit, h.intercept, mul_one, e1, e0, hz, zero_div, mul_zero, add_zero]
  rw [mean_mul]
  generalize p / (1 - p) = r at *
  field_simp

/-- **C263 (improved doubly robust).**  The score is the one that balances the arms. -/
theorem C263_imp (hb : IPTBalance w d x ps) (i : ι) : impPanelIF d tr ps (fitted x β) dy w i = did2IF w d dy i := by
  have h1 := h.treated
  have h0 := h.controls
  have hr := ratio_ne h
  rw [did2_eq h, out_eq h]
  have hd : (fun i => ind d i * w i) = fun i => w i * ind d i := by funext i; ring
  have hbal : mean (fun i => w i * ind d i) = p / (1 - p) * mean fun i => w i * (1 - ind d i) := by
    have h2 := hb ()
    simp only [h.intercept, h.score, mul_one] at h2
    rw [← mean_mul, ← sub_eq_zero, ← mean_sub, mean, show (∑ i, (w i * ind d i - p / (1 - p) * (w i * (1 - ind d i)))) = 0 from ?_, zero_div]
    rw [← h2]
    refine Finset.sum_congr rfl fun j _ => ?_
    unfold ind
    split_ifs <;> ring
  have hs : ∀ j m, w j * (ind tr j * (1 - (1 - ind d j) / (1 - ps j)) * (dy j - m)) = w j * ind d j * (dy j - m) - p / (1 - p) * (w j * (1 - ind d j) * (dy j - m)) := fun j m => by
    have : (1 : ℝ) - p ≠ 0 := sub_ne_zero.2 h.lt.symm
    rw [h.score, show ind tr j = (1 : ℝ) from by simp [ind, h.kept j]]
    unfold ind
    split_ifs <;> field_simp <;> ring
  have hval : impPanel d tr ps (fun _ => wmean (fun i => w i * (1 - ind d i)) dy) dy w = wmean (fun i => w i * ind d i) dy - wmean (fun i => w i * (1 - ind d i)) dy := by
    unfold impPanel
    simp only [hs, hd]
    rw [mean_sub, mean_mul, mean_res h0, mul_zero, sub_zero, ← wmean_sub_const h1]
    rfl
  have e : ∀ m c, w i * ind tr i * (ind tr i * (1 - (1 - ind d i) / (1 - ps i)) * (dy i - m) - ind d i * c) =
      w i * ind d i * (dy i - m) - p / (1 - p) * (w i * (1 - ind d i) * (dy i - m)) - w i * ind d i * c := fun m c => by
    rw [← hs, show ind tr i = (1 : ℝ) from by simp [ind, h.kept i]]
    ring
  unfold impPanelIF
  simp only [hval, hd, e]
  have h1' := h1
  rw [hbal] at h1' ⊢
  generalize (mean fun i => w i * (1 - ind d i)) = b at *
  generalize wmean (fun i => w i * ind d i) dy = m1
  generalize wmean (fun i => w i * (1 - ind d i)) dy = m0
  generalize p / (1 - p) = r at *
  field_simp
  ring

/-- **C263 (Horvitz-Thompson weighting).**  The score is the logit fit and `H` the inverse of its Hessian. -/
theorem C263_ht (H : Unit → Unit → ℝ) (hs : ScoreEq w d x ps) (hH : IsGramInv (fun i => w i * ps i * (1 - ps i)) x H) (i : ι) :
    htPanelIF d tr ps dy w x H i = did2IF w d dy i := by
  have h1 := h.treated
  have h0 := h.controls
  have hr := ratio_ne h
  have hp1 : (1 : ℝ) - p ≠ 0 := sub_ne_zero.2 h.lt.symm
  have hg := gram_unit h.intercept hH
  have hm : mean w = mean (fun i => w i * ind d i) + mean fun i => w i * (1 - ind d i) := by
    have : w = fun i => w i * ind d i - -(w i * (1 - ind d i)) := by funext i; ring
    conv_lhs => rw [this]
    rw [mean_sub, mean_neg, sub_neg_eq_add]
  have hsc : mean (fun i => w i * ind d i) = p * mean w := by
    have h2 := hs ()
    simp only [h.intercept, h.score, mul_one] at h2
    rw [← mean_mul, ← sub_eq_zero, ← mean_sub, mean, show (∑ i, (w i * ind d i - p * w i)) = 0 from ?_, zero_div]
    rw [← h2]
    refine Finset.sum_congr rfl fun j _ => ?_
    unfold ind
    split_ifs <;> ring
  have hH' : mean w * (p * (1 - p)) * H () () = 1 := by
    have e : (fun i => w i * ps i * (1 - ps i)) = fun i => p * (1 - p) * w i := by
      funext j
      rw [h.score]
      ring
    rw [e, mean_mul] at hg
    linarith
  have hw : mean w ≠ 0 := fun hz => h1 (by rw [hsc, hz, mul_zero])
  have hb : mean (fun i => w i * (1 - ind d i)) = (1 - p) * mean w := by rw [hsc] at hm; linarith
  have hHv : H () () = (mean w * (p * (1 - p)))⁻¹ := eq_inv_of_mul_eq_one_right hH'
  have m1 : (mean fun i => w i * ind d i * dy i) = wmean (fun i => w i * ind d i) dy * mean fun i => w i * ind d i := by
    unfold wmean; rw [div_mul_cancel₀ _ h1]
  have m0 : (mean fun i => p / (1 - p) * (w i * (1 - ind d i)) * dy i) = p / (1 - p) * (wmean (fun i => w i * (1 - ind d i)) dy * mean fun i => w i * (1 - ind d i)) := by
    simp only [mul_assoc (p / (1 - p))]
    rw [mean_mul]
    unfold wmean
    rw [div_mul_cancel₀ _ h0]
  rw [did2_eq h]
  unfold htPanelIF htPanel
  simp only [wt_eq h, wc_eq h, dot_unit, ps_unit _ _ _ _ _ h.intercept, h.intercept, mul_one, m1, m0, hHv, h.score]
  rw [hb, hsc]
  generalize wmean (fun i => w i * ind d i) dy = a1
  generalize wmean (fun i => w i * (1 - ind d i)) dy = a0
  generalize mean w = c at *
  have hp := h.pos
  generalize dy i = yi
  rcases (show (ind d i : ℝ) = 0 ∨ (ind d i : ℝ) = 1 by unfold ind; split_ifs <;> simp) with hd | hd <;> rw [hd] <;> field_simp <;> ring

end

/-! ## Repeated cross-sections -/

theorem lead_eq (v y : ι → ℝ) (i : ι) : lead v y i = v i * (y i - wmean v y) / mean v := by
  unfold lead
  rw [hmean_eq]
  ring

theorem avg_lead (w : ι → ℝ) (S : ι → Prop) [DecidablePred S] (v : ι → ℝ) (hv : ∀ i, v i = w i * if S i then 1 else 0) (y : ι → ℝ) (h0 : mean v ≠ 0) (i : ι) :
    lead v y i = avgIF w S y i := by
  obtain rfl : v = fun i => w i * if S i then 1 else 0 := funext hv
  rw [avgIF_eq w S (fun i => if S i then 1 else 0) (fun _ => rfl) y h0, lead_eq]

theorem lead_scale {c : ℝ} (hc : c ≠ 0) (v y : ι → ℝ) (i : ι) : lead (fun i => c * v i) y i = lead v y i := by
  rw [lead_eq, lead_eq, wmean_scale hc, mean_mul, mul_assoc, mul_div_mul_left _ _ hc]

theorem wmean_shift {v y z : ι → ℝ} {m : ℝ} (h0 : mean v ≠ 0) (h : ∀ i, v i * z i = v i * (y i - m)) : wmean v z = wmean v y - m := by
  rw [← wmean_sub_const h0]
  unfold wmean
  simp only [h]

theorem lead_shift {v y z : ι → ℝ} {m : ℝ} (h0 : mean v ≠ 0) (h : ∀ i, v i * z i = v i * (y i - m)) (i : ι) : lead v z i = lead v y i := by
  rw [lead_eq, lead_eq, wmean_shift h0 h, mul_sub, h]
  ring

theorem lead_const {v : ι → ℝ} (h0 : mean v ≠ 0) (c : ℝ) (i : ι) : lead v (fun _ => c) i = 0 := by
  rw [lead_eq, wmean_const h0, sub_self, mul_zero, zero_div]

/-- The fits of the estimators for repeated cross-sections without covariates: an intercept, weight in all four cells, the regressions in the comparison group (`b0`, `b1`)
in the two periods, a constant score `p`, nobody trimmed. -/
structure RCFit (w : ι → ℝ) (d tr post : ι → Bool) (y : ι → ℝ) (x : ι → Unit → ℝ) (b0 b1 : Unit → ℝ) (ps : ι → ℝ) (p : ℝ) (M0 M1 : Unit → Unit → ℝ) : Prop where
  intercept : ∀ i, x i () = 1
  cell : ∀ a b : Bool, mean (fun i => w i * if d i = a ∧ post i = b then 1 else 0) ≠ 0
  treated : mean (fun i => w i * ind d i) ≠ 0
  normal0 : NormalEq w (fun i => !d i && !post i) x y b0
  normal1 : NormalEq w (fun i => !d i && post i) x y b1
  score : ∀ i, ps i = p
  pos : p ≠ 0
  lt : p ≠ 1
  kept : ∀ i, tr i = true
  gram0 : IsGramInv (fun i => w i * ((1 - ind d i) * preK post i)) x M0
  gram1 : IsGramInv (fun i => w i * ((1 - ind d i) * postK post i)) x M1

/-- Weight in a cell. -/
def cellW (w : ι → ℝ) (d post : ι → Bool) (a b : Bool) (i : ι) : ℝ := w i * if d i = a ∧ post i = b then 1 else 0

section
variable {w : ι → ℝ} {d tr post : ι → Bool} {y : ι → ℝ} {x : ι → Unit → ℝ} {b0 b1 t0 t1 : Unit → ℝ} {ps : ι → ℝ} {p : ℝ} {M0 M1 : Unit → Unit → ℝ}
  (h : RCFit w d tr post y x b0 b1 ps p M0 M1)
include h

theorem cell_ne (a b : Bool) : mean (cellW w d post a b) ≠ 0 := h.cell a b

theorem did4_lead (i : ι) : did4IF w d post y i = (lead (cellW w d post true true) y i - lead (cellW w d post true false) y i) -
    (lead (cellW w d post false true) y i - lead (cellW w d post false false) y i) := by
  unfold did4IF
  rw [avg_lead w (fun i => d i = true ∧ post i = true) (cellW w d post true true) (fun _ => rfl) y (cell_ne h true true),
    avg_lead w (fun i => d i = true ∧ post i = false) (cellW w d post true false) (fun _ => rfl) y (cell_ne h true false),
    avg_lead w (fun i => d i = false ∧ post i = true) (cellW w d post false true) (fun _ => rfl) y (cell_ne h false true),
    avg_lead w (fun i => d i = false ∧ post i = false) (cellW w d post false false) (fun _ => rfl) y (cell_ne h false false)]

theorem out0_eq : fitted x b0 = fun _ => wmean (cellW w d post false false) y :=
  fit_unit h.intercept (fun i => by cases d i <;> cases post i <;> simp) (cell_ne h false false) h.normal0

theorem out1_eq : fitted x b1 = fun _ => wmean (cellW w d post false true) y :=
  fit_unit h.intercept (fun i => by cases d i <;> cases post i <;> simp) (cell_ne h false true) h.normal1

theorem wt1_eq : wTreatRC d tr w (postK post) = cellW w d post true true := by
  funext i
  simp only [wTreatRC, cellW, postK, ind, h.kept i]
  cases d i <;> cases post i <;> simp

theorem wt0_eq : wTreatRC d tr w (preK post) = cellW w d post true false := by
  funext i
  simp only [wTreatRC, cellW, preK, ind, h.kept i]
  cases d i <;> cases post i <;> simp

theorem wc1_eq : wContRC d tr ps w (postK post) = fun i => p / (1 - p) * cellW w d post false true i := by
  funext i
  simp only [wContRC, cellW, postK, ind, h.kept i, h.score i]
  cases d i <;> cases post i <;> simp <;> ring

theorem wc0_eq : wContRC d tr ps w (preK post) = fun i => p / (1 - p) * cellW w d post false false i := by
  funext i
  simp only [wContRC, cellW, preK, ind, h.kept i, h.score i]
  cases d i <;> cases post i <;> simp <;> ring

theorem r_ne : p / (1 - p) ≠ 0 := div_ne_zero h.pos (sub_ne_zero.2 h.lt.symm)

theorem mean_cell_res (r : ℝ) (a b : Bool) : (mean fun j => r * cellW w d post a b j * (y j - wmean (cellW w d post a b) y)) = 0 := by
  simp only [mul_assoc r]
  rw [mean_mul, mean_res (cell_ne h a b), mul_zero]

/-- **C263 (repeated cross-sections, inverse probability weighting).** -/
theorem C263_ipw_rc (H : Unit → Unit → ℝ) (i : ι) : ipwRCIF d tr post ps y w x H i = did4IF w d post y i := by
  have hr := r_ne h
  rw [did4_lead h]
  unfold ipwRCIF
  simp only [wt1_eq h, wt0_eq h, wc1_eq h, wc0_eq h, lead_scale hr, hmean_eq, wmean_scale hr, dot_unit, h.intercept, mul_one, mean_cell_res h, zero_div, sub_self, mul_zero,
    add_zero]

/-- **C263 (repeated cross-sections, outcome regression).** -/
theorem C263_reg_rc (i : ι) : regRCIF d post (fitted x b0) (fitted x b1) y w x M0 M1 i = did4IF w d post y i := by
  have e1 : (fun i => w i * ind d i * postK post i) = cellW w d post true true := by
    funext i
    simp only [cellW, postK, ind]
    cases d i <;> cases post i <;> simp
  have e0 : (fun i => w i * ind d i * preK post i) = cellW w d post true false := by
    funext i
    simp only [cellW, preK, ind]
    cases d i <;> cases post i <;> simp
  have f1 : ∀ i, w i * ((1 - ind d i) * postK post i) = cellW w d post false true i := fun i => by
    simp only [cellW, postK, ind]
    cases d i <;> cases post i <;> simp
  have f0 : ∀ i, w i * ((1 - ind d i) * preK post i) = cellW w d post false false i := fun i => by
    simp only [cellW, preK, ind]
    cases d i <;> cases post i <;> simp
  have g1 := gram_unit h.intercept h.gram1
  have g0 := gram_unit h.intercept h.gram0
  rw [funext f1] at g1
  rw [funext f0] at g0
  have hM1 := eq_inv_of_mul_eq_one_right g1
  have hM0 := eq_inv_of_mul_eq_one_right g0
  rw [did4_lead h, out0_eq h, out1_eq h]
  unfold regRCIF
  simp only [funext_iff] at e1 e0
  simp only [e1, e0, f1, f0, dot_unit, alr_unit _ _ _ _ _ h.intercept, h.intercept, mul_one, wmean_const h.treated, sub_self, zero_add, lead_eq, hM1, hM0]
  have ht := h.treated
  have c1 := cell_ne h false true
  have c0 := cell_ne h false false
  have c2 := cell_ne h true true
  have c3 := cell_ne h true false
  change (cellW w d post true true i * y i - cellW w d post true true i * wmean (cellW w d post true true) y) / mean (cellW w d post true true) -
    (cellW w d post true false i * y i - cellW w d post true false i * wmean (cellW w d post true false) y) / mean (cellW w d post true false) - _ = _
  field_simp

/-- **C263 (repeated cross-sections, traditional doubly robust).** -/
theorem C263_trad_rc (H : Unit → Unit → ℝ) (i : ι) : tradRCIF d tr post ps (fitted x b0) (fitted x b1) y w x M0 M1 H i = did4IF w d post y i := by
  have hr := r_ne h
  rw [did4_lead h, out0_eq h, out1_eq h]
  obtain ⟨m0, hm0⟩ : ∃ m, m = wmean (cellW w d post false false) y := ⟨_, rfl⟩
  obtain ⟨m1, hm1⟩ : ∃ m, m = wmean (cellW w d post false true) y := ⟨_, rfl⟩
  obtain ⟨res, hres⟩ : ∃ res, res = fun i => y i - (postK post i * m1 + (1 - postK post i) * m0) := ⟨_, rfl⟩
  have s1 : ∀ a i, cellW w d post a true i * res i = cellW w d post a true i * (y i - m1) := fun a i => by
    rw [hres]
    simp only [cellW, postK, ind]
    cases d i <;> cases post i <;> simp
  have s0 : ∀ a i, cellW w d post a false i * res i = cellW w d post a false i * (y i - m0) := fun a i => by
    rw [hres]
    simp only [cellW, postK, ind]
    cases d i <;> cases post i <;> simp
  have x1 : ∀ r a, xmean (fun i => r * cellW w d post a true i) (postK post) x () = (mean fun i => r * cellW w d post a true i) / mean fun i => r * cellW w d post a true i := fun r a => by
    unfold xmean
    congr 2
    funext j
    simp only [cellW, postK, ind, h.intercept]
    cases d j <;> cases post j <;> simp
  have x0 : ∀ r a, xmean (fun i => r * cellW w d post a false i) (preK post) x () = (mean fun i => r * cellW w d post a false i) / mean fun i => r * cellW w d post a false i := fun r a => by
    unfold xmean
    congr 2
    funext j
    simp only [cellW, preK, ind, h.intercept]
    cases d j <;> cases post j <;> simp
  have y1 : ∀ r a, r ≠ 0 → xmean (fun i => r * cellW w d post a true i) (postK post) x () = 1 := fun r a hr => by
    rw [x1, mean_mul, div_self (mul_ne_zero hr (cell_ne h a true))]
  have y0 : ∀ r a, r ≠ 0 → xmean (fun i => r * cellW w d post a false i) (preK post) x () = 1 := fun r a hr => by
    rw [x0, mean_mul, div_self (mul_ne_zero hr (cell_ne h a false))]
  have y1' : xmean (cellW w d post true true) (postK post) x () = 1 := by simpa using y1 1 true one_ne_zero
  have y0' : xmean (cellW w d post true false) (preK post) x () = 1 := by simpa using y0 1 true one_ne_zero
  have z1 : (mean fun j => p / (1 - p) * cellW w d post false true j * (res j - wmean (cellW w d post false true) res)) = 0 := by
    simp only [mul_assoc (p / (1 - p))]
    rw [mean_mul, mean_res (cell_ne h _ _), mul_zero]
  have z0 : (mean fun j => p / (1 - p) * cellW w d post false false j * (res j - wmean (cellW w d post false false) res)) = 0 := by
    simp only [mul_assoc (p / (1 - p))]
    rw [mean_mul, mean_res (cell_ne h _ _), mul_zero]
  have hrj : ∀ j, y j - (postK post j * m1 + (1 - postK post j) * m0) = res j := fun j => (congrFun hres j).symm
  unfold tradRCIF
  simp only [← hm0, ← hm1, hrj, wt1_eq h, wt0_eq h, wc1_eq h, wc0_eq h, lead_scale hr, hmean_eq, wmean_scale hr, dot_unit, h.intercept, mul_one, z1, z0, zero_div, sub_self,
    mul_zero, add_zero, y1 _ _ hr, y0 _ _ hr, y1', y0', lead_shift (cell_ne h true true) (s1 true), lead_shift (cell_ne h true false) (s0 true),
    lead_shift (cell_ne h false true) (s1 false), lead_shift (cell_ne h false false) (s0 false)]
  ring

/-- **C263 (repeated cross-sections, improved doubly robust).** -/
theorem C263_imp_rc (i : ι) : impRCIF d tr post ps (fitted x b0) (fitted x b1) y w i = did4IF w d post y i := by
  have hr := r_ne h
  rw [did4_lead h, out0_eq h, out1_eq h]
  obtain ⟨m0, hm0⟩ : ∃ m, m = wmean (cellW w d post false false) y := ⟨_, rfl⟩
  obtain ⟨m1, hm1⟩ : ∃ m, m = wmean (cellW w d post false true) y := ⟨_, rfl⟩
  obtain ⟨res, hres⟩ : ∃ res, res = fun i => y i - (postK post i * m1 + (1 - postK post i) * m0) := ⟨_, rfl⟩
  have s1 : ∀ a i, cellW w d post a true i * res i = cellW w d post a true i * (y i - m1) := fun a i => by
    rw [hres]
    simp only [cellW, postK, ind]
    cases d i <;> cases post i <;> simp
  have s0 : ∀ a i, cellW w d post a false i * res i = cellW w d post a false i * (y i - m0) := fun a i => by
    rw [hres]
    simp only [cellW, postK, ind]
    cases d i <;> cases post i <;> simp
  unfold impRCIF
  simp only [← hm0, ← hm1, ← hres, wt1_eq h, wt0_eq h, wc1_eq h, wc0_eq h, lead_scale hr, lead_shift (cell_ne h true true) (s1 true),
    lead_shift (cell_ne h true false) (s0 true), lead_shift (cell_ne h false true) (s1 false), lead_shift (cell_ne h false false) (s0 false)]

theorem wd_eq : (fun i => ind tr i * w i * ind d i) = fun i => w i * ind d i := by
  funext i
  simp [ind, h.kept i]

theorem wd1_eq : (fun i => ind tr i * w i * ind d i * postK post i) = cellW w d post true true := wt1_eq h

theorem wd0_eq : (fun i => ind tr i * w i * ind d i * (1 - postK post i)) = cellW w d post true false := wt0_eq h

/-- **C263 (repeated cross-sections, locally efficient doubly robust).**  Whatever constants are fitted in the treated group. -/
theorem C263_dr_rc (MT0 MT1 H : Unit → Unit → ℝ) (i : ι) :
    drRCIF d tr post ps (fitted x b0) (fitted x b1) (fitted x t0) (fitted x t1) y w x M0 M1 MT0 MT1 H i = did4IF w d post y i := by
  have hT : ∀ t : Unit → ℝ, fitted x t = fun _ => t () := fun t => by
    funext j
    simp [fitted, h.intercept]
  have ht := h.treated
  have c2 := cell_ne h true true
  have c3 := cell_ne h true false
  have q : ∀ v : ι → ℝ, mean v ≠ 0 → (mean fun j => w j * ind d j / (mean fun i => w i * ind d i) - v j / mean v) = 0 := fun v hv => by
    rw [mean_sub, mean_div, mean_div, div_self ht, div_self hv, sub_self]
  unfold drRCIF
  simp only [C263_trad_rc h H i]
  have e1 : ∀ j, ind tr j * w j * ind d j = w j * ind d j := fun j => congrFun (wd_eq h) j
  have e2 : ∀ j, ind tr j * w j * ind d j * postK post j = cellW w d post true true j := fun j => congrFun (wd1_eq h) j
  have e3 : ∀ j, ind tr j * w j * ind d j * (1 - postK post j) = cellW w d post true false j := fun j => congrFun (wd0_eq h) j
  simp only [e2, e3]
  simp only [e1, hT, lead_const ht, lead_const c2, lead_const c3, sub_self, dot_unit, h.intercept, mul_one, q _ c2, q _ c3, mul_zero, add_zero]

/-- **C263 (repeated cross-sections, improved locally efficient).** -/
theorem C263_imp_local_rc (i : ι) : impLocalRCIF d tr post ps (fitted x b0) (fitted x b1) (fitted x t0) (fitted x t1) y w i = did4IF w d post y i := by
  have hT : ∀ t : Unit → ℝ, fitted x t = fun _ => t () := fun t => by
    funext j
    simp [fitted, h.intercept]
  have ht := h.treated
  have c2 := cell_ne h true true
  have c3 := cell_ne h true false
  unfold impLocalRCIF
  simp only [C263_imp_rc h i]
  have e1 : ∀ j, ind tr j * w j * ind d j = w j * ind d j := fun j => congrFun (wd_eq h) j
  have e2 : ∀ j, ind tr j * w j * ind d j * postK post j = cellW w d post true true j := fun j => congrFun (wd1_eq h) j
  have e3 : ∀ j, ind tr j * w j * ind d j * (1 - postK post j) = cellW w d post true false j := fun j => congrFun (wd0_eq h) j
  simp only [e2, e3]
  simp only [e1, hT, lead_const ht, lead_const c2, lead_const c3, sub_self, add_zero]

end

/-! ## Non-vacuity -/

def eW : Fin 5 → ℝ := ![1, 2, 1, 1, 1]
def eD : Fin 5 → Bool := ![true, true, false, false, false]
def eY : Fin 5 → ℝ := ![5, 8, 1, 2, 6]

@[local simp] theorem eW_0 : eW 0 = 1 := rfl
@[local simp] theorem eW_1 : eW 1 = 2 := rfl
@[local simp] theorem eW_2 : eW 2 = 1 := rfl
@[local simp] theorem eW_3 : eW 3 = 1 := rfl
@[local simp] theorem eW_4 : eW 4 = 1 := rfl
@[local simp] theorem eD_0 : eD 0 = true := rfl
@[local simp] theorem eD_1 : eD 1 = true := rfl
@[local simp] theorem eD_2 : eD 2 = false := rfl
@[local simp] theorem eD_3 : eD 3 = false := rfl
@[local simp] theorem eD_4 : eD 4 = false := rfl
@[local simp] theorem eY_0 : eY 0 = 5 := rfl
@[local simp] theorem eY_1 : eY 1 = 8 := rfl
@[local simp] theorem eY_2 : eY 2 = 1 := rfl
@[local simp] theorem eY_3 : eY 3 = 2 := rfl
@[local simp] theorem eY_4 : eY 4 = 6 := rfl

theorem e_fit : PanelFit eW eD (fun _ => true) eY (fun (_ : Fin 5) (_ : Unit) => (1 : ℝ)) (fun _ => 3) (fun _ => 1 / 2) (1 / 2) (fun _ _ => 5 / 3) where
  intercept _ := rfl
  treated := by norm_num [mean, Fin.sum_univ_five, ind]
  controls := by norm_num [mean, Fin.sum_univ_five, ind]
  normal _ := by
    rw [Finset.sum_filter]
    norm_num [Fin.sum_univ_five, notB]
  score _ := rfl
  pos := by norm_num
  lt := by norm_num
  kept _ := rfl
  gram _ _ := by norm_num [mean, Fin.sum_univ_five, ind]

theorem e_bal : IPTBalance eW eD (fun (_ : Fin 5) (_ : Unit) => (1 : ℝ)) (fun _ => 1 / 2) := fun _ => by norm_num [Fin.sum_univ_five]
theorem e_score : ScoreEq eW eD (fun (_ : Fin 5) (_ : Unit) => (1 : ℝ)) (fun _ => (1 : ℝ) / 2) := fun _ => by norm_num [Fin.sum_univ_five]
theorem e_hess : IsGramInv (fun i => eW i * (1 / 2) * (1 - 1 / 2)) (fun (_ : Fin 5) (_ : Unit) => (1 : ℝ)) (fun _ _ => 10 / 3) := fun _ _ => by norm_num [mean, Fin.sum_univ_five]

/-- The common value is not zero: the influence of the first treated unit. -/
theorem e_val : did2IF eW eD eY 0 = -10 / 3 := by
  unfold did2IF avgIF wavg
  simp only [Finset.sum_filter, Fin.sum_univ_five]
  norm_num

example : drPanelIF eD (fun _ => true) (fun _ => 1 / 2) (fitted (fun (_ : Fin 5) (_ : Unit) => (1 : ℝ)) fun _ => 3) eY eW (fun (_ : Fin 5) (_ : Unit) => (1 : ℝ)) (fun _ _ => 5 / 3) (fun _ _ => 10 / 3) 0 = -10 / 3 :=
  (C263_dr e_fit _ 0).trans e_val
example : regPanelIF eD (fitted (fun (_ : Fin 5) (_ : Unit) => (1 : ℝ)) fun _ => 3) eY eW (fun (_ : Fin 5) (_ : Unit) => (1 : ℝ)) (fun _ _ => 5 / 3) 0 = -10 / 3 := (C263_reg e_fit 0).trans e_val
example : ipwPanelIF eD (fun _ => true) (fun _ => 1 / 2) eY eW (fun (_ : Fin 5) (_ : Unit) => (1 : ℝ)) (fun _ (_ : Unit) => 10 / 3) 0 = -10 / 3 := (C263_ipw e_fit _ 0).trans e_val
example : impPanelIF eD (fun _ => true) (fun _ => 1 / 2) (fitted (fun (_ : Fin 5) (_ : Unit) => (1 : ℝ)) fun _ => 3) eY eW 0 = -10 / 3 := (C263_imp e_fit e_bal 0).trans e_val
example : htPanelIF eD (fun _ => true) (fun _ => 1 / 2) eY eW (fun (_ : Fin 5) (_ : Unit) => (1 : ℝ)) (fun _ _ => 10 / 3) 0 = -10 / 3 := (C263_ht e_fit _ e_score e_hess 0).trans e_val

def rW : Fin 8 → ℝ := ![1, 2, 1, 1, 3, 1, 1, 2]
def rD : Fin 8 → Bool := ![true, true, true, true, false, false, false, false]
def rP : Fin 8 → Bool := ![true, true, false, false, true, true, false, false]
def rY : Fin 8 → ℝ := ![5, 8, 1, 2, 2, 6, 3, 0]

@[local simp] theorem rW_0 : rW 0 = 1 := rfl
@[local simp] theorem rW_1 : rW 1 = 2 := rfl
@[local simp] theorem rW_2 : rW 2 = 1 := rfl
@[local simp] theorem rW_3 : rW 3 = 1 := rfl
@[local simp] theorem rW_4 : rW 4 = 3 := rfl
@[local simp] theorem rW_5 : rW 5 = 1 := rfl
@[local simp] theorem rW_6 : rW 6 = 1 := rfl
@[local simp] theorem rW_7 : rW 7 = 2 := rfl
@[local simp] theorem rD_0 : rD 0 = true := rfl
@[local simp] theorem rD_1 : rD 1 = true := rfl
@[local simp] theorem rD_2 : rD 2 = true := rfl
@[local simp] theorem rD_3 : rD 3 = true := rfl
@[local simp] theorem rD_4 : rD 4 = false := rfl
@[local simp] theorem rD_5 : rD 5 = false := rfl
@[local simp] theorem rD_6 : rD 6 = false := rfl
@[local simp] theorem rD_7 : rD 7 = false := rfl
@[local simp] theorem rP_0 : rP 0 = true := rfl
@[local simp] theorem rP_1 : rP 1 = true := rfl
@[local simp] theorem rP_2 : rP 2 = false := rfl
@[local simp] theorem rP_3 : rP 3 = false := rfl
@[local simp] theorem rP_4 : rP 4 = true := rfl
@[local simp] theorem rP_5 : rP 5 = true := rfl
@[local simp] theorem rP_6 : rP 6 = false := rfl
@[local simp] theorem rP_7 : rP 7 = false := rfl
@[local simp] theorem rY_0 : rY 0 = 5 := rfl
@[local simp] theorem rY_1 : rY 1 = 8 := rfl
@[local simp] theorem rY_2 : rY 2 = 1 := rfl
@[local simp] theorem rY_3 : rY 3 = 2 := rfl
@[local simp] theorem rY_4 : rY 4 = 2 := rfl
@[local simp] theorem rY_5 : rY 5 = 6 := rfl
@[local simp] theorem rY_6 : rY 6 = 3 := rfl
@[local simp] theorem rY_7 : rY 7 = 0 := rfl

theorem r_fit : RCFit rW rD (fun _ => true) rP rY (fun (_ : Fin 8) (_ : Unit) => (1 : ℝ)) (fun _ => 1) (fun _ => 3) (fun _ => 5 / 12) (5 / 12) (fun _ _ => 8 / 3) (fun _ _ => 2) where
  intercept _ := rfl
  cell a b := by
    cases a <;> cases b <;> norm_num [mean, Fin.sum_univ_eight]
  treated := by norm_num [mean, Fin.sum_univ_eight, ind]
  normal0 _ := by
    rw [Finset.sum_filter]
    norm_num [Fin.sum_univ_eight]
  normal1 _ := by
    rw [Finset.sum_filter]
    norm_num [Fin.sum_univ_eight]
  score _ := rfl
  pos := by norm_num
  lt := by norm_num
  kept _ := rfl
  gram0 _ _ := by norm_num [mean, Fin.sum_univ_eight, ind, preK]
  gram1 _ _ := by norm_num [mean, Fin.sum_univ_eight, ind, postK]

theorem r_val : did4IF rW rD rP rY 4 = 6 := by
  unfold did4IF avgIF wavg
  simp only [Finset.sum_filter, Fin.sum_univ_eight]
  norm_num

example : ipwRCIF rD (fun _ => true) rP (fun _ => 5 / 12) rY rW (fun (_ : Fin 8) (_ : Unit) => (1 : ℝ)) (fun _ (_ : Unit) => 7) 4 = 6 := (C263_ipw_rc r_fit _ 4).trans r_val
example : regRCIF rD rP (fitted (fun (_ : Fin 8) (_ : Unit) => (1 : ℝ)) fun _ => 1) (fitted (fun (_ : Fin 8) (_ : Unit) => (1 : ℝ)) fun _ => 3) rY rW (fun (_ : Fin 8) (_ : Unit) => (1 : ℝ)) (fun _ _ => 8 / 3) (fun _ _ => 2) 4 = 6 :=
  (C263_reg_rc r_fit 4).trans r_val
example (H : Unit → Unit → ℝ) : tradRCIF rD (fun _ => true) rP (fun _ => 5 / 12) (fitted (fun (_ : Fin 8) (_ : Unit) => (1 : ℝ)) fun _ => 1) (fitted (fun (_ : Fin 8) (_ : Unit) => (1 : ℝ)) fun _ => 3) rY rW
    (fun (_ : Fin 8) (_ : Unit) => (1 : ℝ)) (fun _ _ => 8 / 3) (fun _ _ => 2) H 4 = 6 := (C263_trad_rc r_fit _ 4).trans r_val
example (MT0 MT1 H : Unit → Unit → ℝ) : drRCIF rD (fun _ => true) rP (fun _ => 5 / 12) (fitted (fun (_ : Fin 8) (_ : Unit) => (1 : ℝ)) fun _ => 1) (fitted (fun (_ : Fin 8) (_ : Unit) => (1 : ℝ)) fun _ => 3)
    (fitted (fun (_ : Fin 8) (_ : Unit) => (1 : ℝ)) fun _ => 3 / 2) (fitted (fun (_ : Fin 8) (_ : Unit) => (1 : ℝ)) fun _ => 7) rY rW (fun (_ : Fin 8) (_ : Unit) => (1 : ℝ)) (fun _ _ => 8 / 3) (fun _ _ => 2) MT0 MT1 H 4 = 6 :=
  (C263_dr_rc r_fit _ _ _ 4).trans r_val
example : impRCIF rD (fun _ => true) rP (fun _ => 5 / 12) (fitted (fun (_ : Fin 8) (_ : Unit) => (1 : ℝ)) fun _ => 1) (fitted (fun (_ : Fin 8) (_ : Unit) => (1 : ℝ)) fun _ => 3) rY rW 4 = 6 :=
  (C263_imp_rc r_fit 4).trans r_val
example : impLocalRCIF rD (fun _ => true) rP (fun _ => 5 / 12) (fitted (fun (_ : Fin 8) (_ : Unit) => (1 : ℝ)) fun _ => 1) (fitted (fun (_ : Fin 8) (_ : Unit) => (1 : ℝ)) fun _ => 3)
    (fitted (fun (_ : Fin 8) (_ : Unit) => (1 : ℝ)) fun _ => 3 / 2) (fitted (fun (_ : Fin 8) (_ : Unit) => (1 : ℝ)) fun _ => 7) rY rW 4 = 6 := (C263_imp_local_rc r_fit 4).trans r_val

end Verif.DR.NoCov
