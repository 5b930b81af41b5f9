import Verif.DR.Lemmas
import Mathlib.Algebra.Field.Rat
import Mathlib.Algebra.Order.Ring.Rat
import Mathlib.Data.Fin.VecNotation

set_option linter.unusedSectionVars false

/-!
# Two-period estimators on panels: C25, C26, C28, C30
-/

namespace Verif.DR

variable {ι κ K : Type*} [Fintype ι] [Fintype κ] [Field K] [LinearOrder K] [IsStrictOrderedRing K]

/-! ## C25: no covariates -/

/-- Treated share of the total weight. -/
def treatedShare (w : ι → K) (d : ι → Bool) : K := (∑ i with d i = true, w i) / ∑ i, w i

lemma sum_split (d : ι → Bool) (f : ι → K) :
    ∑ i, f i = ∑ i with d i = true, f i + ∑ i with d i = false, f i := by
  rw [← Finset.sum_filter_add_sum_filter_not Finset.univ (fun i => d i = true)]
  congr 1
  apply Finset.sum_congr _ fun _ _ => rfl
  ext i; simp

lemma sum_notB (d : ι → Bool) (f : ι → K) : ∑ i, ind (notB d) i * f i = ∑ i with d i = false, f i := by
  rw [sum_ind]
  apply Finset.sum_congr _ fun _ _ => rfl
  ext i; simp [notB]

/-- A regression of the comparison units' changes on a constant alone returns their weighted mean change. -/
lemma intercept_fit (w : ι → K) (sel : ι → Bool) (x : ι → Unit → K) (hx : ∀ i, x i () = 1) (y : ι → K)
    (β : Unit → K) (h : NormalEq w sel x y β) (hw : ∑ i with sel i = true, w i ≠ 0) (i : ι) :
    fitted x β i = wavg w (fun i => sel i = true) y := by
  have h0 := h ()
  simp only [hx, Finset.univ_unique, PUnit.default_eq_unit, Finset.sum_singleton, one_mul, mul_one, mul_sub,
    Finset.sum_sub_distrib, ← Finset.sum_mul] at h0
  unfold fitted wavg
  simp only [hx, Finset.univ_unique, PUnit.default_eq_unit, Finset.sum_singleton, one_mul]
  rw [eq_div_iff hw]
  linear_combination -h0

/-- A logit with a constant only (all fitted scores equal) puts the score at the treated share. -/
lemma intercept_logit (w : ι → K) (d : ι → Bool) (x : ι → Unit → K) (hx : ∀ i, x i () = 1) (p : K)
    (h : ScoreEq w d x (fun _ => p)) (hw : ∑ i, w i ≠ 0) : p = treatedShare w d := by
  have h0 := h ()
  simp only [hx, mul_one, mul_sub, Finset.sum_sub_distrib, ← Finset.sum_mul, mul_ite, mul_zero] at h0
  unfold treatedShare
  rw [eq_div_iff hw, Finset.sum_filter]
  linear_combination -h0

/-- Hypotheses under which the 2x2 design is estimable: non-negative weights, positive weight in both arms. -/
structure BothArms (w : ι → K) (d : ι → Bool) : Prop where
  nonneg : ∀ i, 0 ≤ w i
  treated : 0 < ∑ i with d i = true, w i
  control : 0 < ∑ i with d i = false, w i

lemma BothArms.nonempty {w : ι → K} {d : ι → Bool} (h : BothArms w d) : Nonempty ι := by
  by_contra hn
  rw [not_nonempty_iff] at hn
  have := h.treated
  simp at this

lemma BothArms.exT {w : ι → K} {d : ι → Bool} (h : BothArms w d) : ∃ i, d i = true := by
  by_contra hn
  push Not at hn
  have := h.treated
  rw [Finset.filter_false_of_mem (by intro i _; simpa using hn i)] at this
  simp at this

lemma BothArms.exC {w : ι → K} {d : ι → Bool} (h : BothArms w d) : ∃ i, d i = false := by
  by_contra hn
  push Not at hn
  have := h.control
  rw [Finset.filter_false_of_mem (by intro i _; simpa using hn i)] at this
  simp at this

lemma BothArms.total {w : ι → K} {d : ι → Bool} (h : BothArms w d) : 0 < ∑ i, w i := by
  rw [sum_split d]; exact add_pos h.treated h.control

lemma BothArms.mean_pos {w : ι → K} {d : ι → Bool} (h : BothArms w d) : 0 < mean w := by
  have := h.nonempty
  unfold mean
  apply div_pos h.total
  exact_mod_cast Fintype.card_pos

lemma BothArms.norm {w : ι → K} {d : ι → Bool} (h : BothArms w d) : BothArms (normalize w) d := by
  have hm := h.mean_pos
  constructor
  · intro i; exact div_nonneg (h.nonneg i) hm.le
  · unfold normalize; rw [← Finset.sum_div]; exact div_pos h.treated hm
  · unfold normalize; rw [← Finset.sum_div]; exact div_pos h.control hm

lemma share_normalize {w : ι → K} {d : ι → Bool} (h : BothArms w d) :
    treatedShare (normalize w) d = treatedShare w d := by
  unfold treatedShare normalize
  rw [← Finset.sum_div, ← Finset.sum_div, div_div_div_cancel_right₀ h.mean_pos.ne']

/-- **C25 (DR).** Without covariates (design a column of ones, `ols` any least-squares solution, `logit` any constant
fit satisfying the likelihood equations) `drdid_panel` returns the difference of weighted mean changes, as soon as the
(clipped) treated share is below the trimming level. -/
theorem C25_dr_no_covariates (ols : OLS ι Unit K) (logit : Logit ι Unit K) (lo hi level : K)
    (y1 y0 : ι → K) (d : ι → Bool) (x : ι → Unit → K) (w : ι → K)
    (hlo : 0 < lo) (hhi : hi < 1) (hx : ∀ i, x i () = 1) (hw : BothArms w d) (hlh : lo ≤ hi)
    (hols : NormalEq (normalize w) (notB d) x (fun i => y1 i - y0 i)
      (ols (normalize w) (notB d) x (fun i => y1 i - y0 i)))
    (hlog : ∃ p, logit (normalize w) d x = fun _ => p)
    (hscore : ScoreEq (normalize w) d x (logit (normalize w) d x))
    (hlevel : min hi (max lo (treatedShare w d)) < level) :
    drdidPanel ols logit lo hi level y1 y0 d x w = .ok (did2x2 w d y1 y0) := by
  obtain ⟨p, hp⟩ := hlog
  have hne := hw.nonempty
  have hwn := hw.norm
  rw [hp] at hscore
  have hps := intercept_logit _ _ _ hx _ hscore hwn.total.ne'
  rw [share_normalize hw] at hps
  set q := min hi (max lo p) with hq
  have hclip : clip lo hi (logit (normalize w) d x) = fun _ => q := by
    funext i; unfold clip; rw [hp]
  have hq1 : q < 1 := lt_of_le_of_lt (min_le_left _ _) hhi
  have hq0 : 0 < q := lt_min (lt_of_lt_of_le hlo hlh) (lt_of_lt_of_le hlo (le_max_left _ _))
  have hql : q < level := by rw [hq, hps]; exact hlevel
  have hodds : q / (1 - q) ≠ 0 := (div_pos hq0 (sub_pos.2 hq1)).ne'
  have hT : mean (fun i => ind d i * normalize w i) ≠ 0 := by
    rw [Ne, mean_eq_zero, sum_ind]; exact hwn.treated.ne'
  have hC : mean (fun i => q / (1 - q) * (ind (notB d) i * normalize w i)) ≠ 0 := by
    rw [Ne, mean_eq_zero, ← Finset.mul_sum, sum_notB]
    exact mul_ne_zero hodds hwn.control.ne'
  unfold drdidPanel
  have hneg : ¬ ∃ i, w i < 0 := by push Not; exact hw.nonneg
  rw [if_neg hneg]
  simp only [not_not.2 hw.exT, not_not.2 hw.exC, if_false]
  rw [hclip, wTreat_trim, wCont_const hql, if_neg hT, if_neg hC]
  unfold drPanel
  rw [wTreat_trim, wCont_const hql, wmean_scale hodds]
  have hsel : ∑ i with notB d i = true, normalize w i ≠ 0 := by
    have : ∑ i with notB d i = true, normalize w i = ∑ i with d i = false, normalize w i := by
      apply Finset.sum_congr _ fun _ _ => rfl
      ext i; simp [notB]
    rw [this]; exact hwn.control.ne'
  have hfit := intercept_fit (normalize w) (notB d) x hx (fun i => y1 i - y0 i) _
    hols hsel
  set c := wavg (normalize w) (fun i => notB d i = true) (fun i => y1 i - y0 i)
  have hf : (fun i => (y1 i - y0 i) - fitted x (ols (normalize w) (notB d) x fun i => y1 i - y0 i) i)
      = fun i => (y1 i - y0 i) - c := by funext i; rw [hfit]
  rw [hf, wmean_sub _ (fun i => y1 i - y0 i) (fun _ => c), wmean_sub _ (fun i => y1 i - y0 i) (fun _ => c)]
  rw [wmean_const _ _ hT]
  have hC' : mean (fun i => ind (notB d) i * normalize w i) ≠ 0 := by
    rw [Ne, mean_eq_zero, sum_notB]; exact hwn.control.ne'
  rw [wmean_const _ _ hC', wmean_group, wmean_group, wavg_normalize _ _ hw.mean_pos.ne',
    wavg_normalize _ _ hw.mean_pos.ne']
  unfold did2x2
  rw [wavg_congr (S := fun i => notB d i = true) (T := fun i => d i = false) w _ (by intro i; simp [notB])]
  congr 1
  ring

/-- **C25 (REG).** Without covariates `reg_did_panel` returns the difference of weighted mean changes. -/
theorem C25_reg_no_covariates (ols : OLS ι Unit K) (y1 y0 : ι → K) (d : ι → Bool) (x : ι → Unit → K) (w : ι → K)
    (hx : ∀ i, x i () = 1) (hw : BothArms w d)
    (hols : NormalEq (normalize w) (notB d) x (fun i => y1 i - y0 i)
      (ols (normalize w) (notB d) x (fun i => y1 i - y0 i))) :
    regDidPanel ols y1 y0 d x w = .ok (some (did2x2 w d y1 y0)) := by
  have hne := hw.nonempty
  have hwn := hw.norm
  unfold regDidPanel
  have hneg : ¬ ∃ i, w i < 0 := by push Not; exact hw.nonneg
  have hcard : (Finset.univ.filter (fun i => d i = false)).card ≠ 0 := by
    obtain ⟨i, hi⟩ := hw.exC
    rw [Finset.card_ne_zero]; exact ⟨i, by simp [hi]⟩
  rw [if_neg hneg]
  have hT : mean (fun i => normalize w i * ind d i) ≠ 0 := by
    have : (fun i => normalize w i * ind d i) = fun i => ind d i * normalize w i := by funext i; ring
    rw [this, Ne, mean_eq_zero, sum_ind]; exact hwn.treated.ne'
  have h1 : ¬ ((Finset.univ.filter (fun i => d i = false)).card ≠ 0 ∧
      (Finset.univ.filter (fun i => d i = false)).card < Fintype.card Unit) := by
    rintro ⟨-, h⟩; simp only [Fintype.card_unit] at h; omega
  simp only [if_neg h1, if_neg hT, if_neg hcard]
  have hsel : ∑ i with notB d i = true, normalize w i ≠ 0 := by
    have : ∑ i with notB d i = true, normalize w i = ∑ i with d i = false, normalize w i := by
      apply Finset.sum_congr _ fun _ _ => rfl
      ext i; simp [notB]
    rw [this]; exact hwn.control.ne'
  have hfit := intercept_fit (normalize w) (notB d) x hx (fun i => y1 i - y0 i) _
    hols hsel
  unfold regPanel
  have : (fitted x (ols (normalize w) (notB d) x fun i => y1 i - y0 i)) =
      fun _ => wavg (normalize w) (fun i => notB d i = true) (fun i => y1 i - y0 i) := by
    funext i; rw [hfit]
  rw [this, wmean_const _ _ hT]
  have : (fun i => normalize w i * ind d i) = fun i => ind d i * normalize w i := by funext i; ring
  rw [this, wmean_group, wavg_normalize _ _ hw.mean_pos.ne', wavg_normalize _ _ hw.mean_pos.ne']
  unfold did2x2
  rw [wavg_congr (S := fun i => notB d i = true) (T := fun i => d i = false) w _ (by intro i; simp [notB])]

/-- **C25 (IPW).** Without covariates `std_ipw_did_panel` returns the difference of weighted mean changes. -/
theorem C25_ipw_no_covariates (logit : Logit ι Unit K) (lo hi level : K)
    (y1 y0 : ι → K) (d : ι → Bool) (x : ι → Unit → K) (w : ι → K)
    (hlo : 0 < lo) (hhi : hi < 1) (hx : ∀ i, x i () = 1) (hw : BothArms w d) (hlh : lo ≤ hi)
    (hlog : ∃ p, logit (normalize w) d x = fun _ => p)
    (hscore : ScoreEq (normalize w) d x (logit (normalize w) d x))
    (hlevel : min hi (max lo (treatedShare w d)) < level) :
    stdIpwDidPanel logit lo hi level y1 y0 d x w = .ok (some (did2x2 w d y1 y0)) := by
  obtain ⟨p, hp⟩ := hlog
  have hne := hw.nonempty
  have hwn := hw.norm
  rw [hp] at hscore
  have hps := intercept_logit _ _ _ hx _ hscore hwn.total.ne'
  rw [share_normalize hw] at hps
  set q := min hi (max lo p) with hq
  have hclip : clip lo hi (logit (normalize w) d x) = fun _ => q := by
    funext i; unfold clip; rw [hp]
  have hq1 : q < 1 := lt_of_le_of_lt (min_le_left _ _) hhi
  have hq0 : 0 < q := lt_min (lt_of_lt_of_le hlo hlh) (lt_of_lt_of_le hlo (le_max_left _ _))
  have hql : q < level := by rw [hq, hps]; exact hlevel
  have hodds : q / (1 - q) ≠ 0 := (div_pos hq0 (sub_pos.2 hq1)).ne'
  have hT : mean (fun i => ind d i * normalize w i) ≠ 0 := by
    rw [Ne, mean_eq_zero, sum_ind]; exact hwn.treated.ne'
  have hC : mean (fun i => q / (1 - q) * (ind (notB d) i * normalize w i)) ≠ 0 := by
    rw [Ne, mean_eq_zero, ← Finset.mul_sum, sum_notB]
    exact mul_ne_zero hodds hwn.control.ne'
  unfold stdIpwDidPanel
  have hneg : ¬ ∃ i, w i < 0 := by push Not; exact hw.nonneg
  rw [if_neg hneg]
  simp only [not_not.2 hw.exT, not_not.2 hw.exC, if_false]
  rw [hclip, wTreat_trim, wCont_const hql, if_neg hT, if_neg hC]
  unfold ipwPanel
  rw [wTreat_trim, wCont_const hql]
  have e1 := hmean_eq_wmean (fun i => ind d i * normalize w i) (fun i => y1 i - y0 i)
  have e2 := hmean_eq_wmean (fun i => q / (1 - q) * (ind (notB d) i * normalize w i)) (fun i => y1 i - y0 i)
  unfold hmean at e1 e2
  rw [e1, e2, wmean_scale hodds, wmean_group, wmean_group, wavg_normalize _ _ hw.mean_pos.ne',
    wavg_normalize _ _ hw.mean_pos.ne']
  unfold did2x2
  rw [wavg_congr (S := fun i => notB d i = true) (T := fun i => d i = false) w _ (by intro i; simp [notB])]

/-- **C25 (trimming boundary).** If the treated share reaches the trimming level, every comparison unit is trimmed and
`drdid_panel` refuses to answer rather than returning a number. -/
theorem C25_dr_all_trimmed (ols : OLS ι Unit K) (logit : Logit ι Unit K) (lo hi level : K)
    (y1 y0 : ι → K) (d : ι → Bool) (x : ι → Unit → K) (w : ι → K)
    (hx : ∀ i, x i () = 1) (hw : BothArms w d)
    (hlog : ∃ p, logit (normalize w) d x = fun _ => p)
    (hscore : ScoreEq (normalize w) d x (logit (normalize w) d x))
    (hlevel : level ≤ min hi (max lo (treatedShare w d))) :
    drdidPanel ols logit lo hi level y1 y0 d x w = .error .noControls := by
  obtain ⟨p, hp⟩ := hlog
  have hne := hw.nonempty
  have hwn := hw.norm
  rw [hp] at hscore
  have hps := intercept_logit _ _ _ hx _ hscore hwn.total.ne'
  rw [share_normalize hw] at hps
  have hclip : clip lo hi (logit (normalize w) d x) = fun _ => min hi (max lo p) := by
    funext i; unfold clip; rw [hp]
  have hT : mean (fun i => ind d i * normalize w i) ≠ 0 := by
    rw [Ne, mean_eq_zero, sum_ind]; exact hwn.treated.ne'
  unfold drdidPanel
  have hneg : ¬ ∃ i, w i < 0 := by push Not; exact hw.nonneg
  rw [if_neg hneg]
  simp only [not_not.2 hw.exT, not_not.2 hw.exC, if_false]
  rw [hclip, wTreat_trim, wCont_const_trimmed (by rw [hps]; exact hlevel), if_neg hT, if_pos]
  simp [mean]

/-- Executable stand-ins for the two fits in the intercept-only design, used to show that the hypotheses of the C25
theorems can be met. -/
def exOls : OLS (Fin 5) Unit ℚ := fun w sel _ y _ => (∑ i with sel i = true, w i * y i) / ∑ i with sel i = true, w i
def exLogit : Logit (Fin 5) Unit ℚ := fun w d _ _ => treatedShare w d
def exD : Fin 5 → Bool := ![true, true, false, false, false]
def exW : Fin 5 → ℚ := ![1, 2, 1, 3, 2]
def exY1 : Fin 5 → ℚ := ![7, 9, 2, 3, 5]
def exY0 : Fin 5 → ℚ := ![1, 2, 1, 4, 2]

lemma exArms : BothArms exW exD := by
  constructor <;> decide +kernel

example : drdidPanel exOls exLogit (1/1000000) (999999/1000000) (995/1000) exY1 exY0 exD (fun _ _ => 1) exW
    = .ok (did2x2 exW exD exY1 exY0) ∧ did2x2 exW exD exY1 exY0 = 6 := by
  refine ⟨C25_dr_no_covariates _ _ _ _ _ _ _ _ _ _ (by decide +kernel) (by decide +kernel) (fun _ => rfl) exArms
    (by decide +kernel) ?_ ⟨_, rfl⟩ ?_ (by decide +kernel), by decide +kernel⟩
  · intro k; revert k; decide +kernel
  · intro k; revert k; decide +kernel

/-! ## C26: invariances -/

lemma normalize_scale (w : ι → K) {c : K} (hc : c ≠ 0) : normalize (fun i => c * w i) = normalize w := by
  funext i
  unfold normalize mean
  rw [← Finset.mul_sum, mul_div_assoc c (∑ i, w i), mul_div_mul_left _ _ hc]

lemma neg_scale (w : ι → K) {c : K} (hc : 0 < c) : (∃ i, c * w i < 0) ↔ ∃ i, w i < 0 := by
  simp only [mul_neg_iff, hc, hc.not_gt, true_and, false_and, or_false]

/-- **C26 (weights).** Multiplying all weights by a positive constant changes nothing in any of the panel estimators,
whatever the fitting routines do. -/
theorem C26_weight_scale (ols : OLS ι κ K) (logit : Logit ι κ K) (lo hi level c : K) (hc : 0 < c)
    (y1 y0 : ι → K) (d : ι → Bool) (x : ι → κ → K) (w : ι → K) :
    drdidPanel ols logit lo hi level y1 y0 d x (fun i => c * w i) = drdidPanel ols logit lo hi level y1 y0 d x w ∧
    regDidPanel ols y1 y0 d x (fun i => c * w i) = regDidPanel ols y1 y0 d x w ∧
    stdIpwDidPanel logit lo hi level y1 y0 d x (fun i => c * w i) = stdIpwDidPanel logit lo hi level y1 y0 d x w ∧
    drdidImpPanel ols logit lo hi level y1 y0 d x (fun i => c * w i) =
      drdidImpPanel ols logit lo hi level y1 y0 d x w := by
  unfold drdidPanel regDidPanel stdIpwDidPanel drdidImpPanel
  simp only [normalize_scale w hc.ne', neg_scale w hc, and_self]

example : (fun i => 3 * exW i) ≠ exW := by decide +kernel

lemma fitted_add (x : ι → κ → K) (β γ : κ → K) (c : K) (i : ι) :
    fitted x (fun l => β l + c * γ l) i = fitted x β i + c * fitted x γ i := by
  unfold fitted
  rw [Finset.mul_sum, ← Finset.sum_add_distrib]
  exact Finset.sum_congr rfl fun l _ => by ring

/-- Uniqueness of the fit. -/
lemma fit_shift {w : ι → K} {sel : ι → Bool} {x : ι → κ → K} {y y' : ι → K} {β β' b0 : κ → K} {c : K}
    (hr : FullRank w sel x) (h : NormalEq w sel x y β) (h' : NormalEq w sel x y' β')
    (hb : ∀ i, ∑ l, x i l * b0 l = 1) (hy : ∀ i, sel i = true → y' i = y i + c) (i : ι) :
    fitted x β' i = fitted x β i + c := by
  have hv : (fun l => (β' l - β l) - c * b0 l) = 0 := by
    apply hr
    intro k
    have hk := h k
    have hk' := h' k
    have e : ∀ i, ∑ l, x i l * ((β' l - β l) - c * b0 l) = (∑ l, x i l * β' l) - (∑ l, x i l * β l) - c := by
      intro i
      have := hb i
      simp only [mul_sub, Finset.sum_sub_distrib]
      have : ∑ l, x i l * (c * b0 l) = c := by
        calc ∑ l, x i l * (c * b0 l) = c * ∑ l, x i l * b0 l := by
              rw [Finset.mul_sum]
              exact Finset.sum_congr rfl fun l _ => by ring
          _ = c := by rw [this, mul_one]
      rw [this]
    calc ∑ i with sel i = true, w i * (∑ l, x i l * ((β' l - β l) - c * b0 l)) * x i k
        = ∑ i with sel i = true, (w i * (y i - ∑ l, x i l * β l) * x i k
            - w i * (y' i - ∑ l, x i l * β' l) * x i k) := by
          refine Finset.sum_congr rfl fun i hi => ?_
          rw [e, hy i (by simpa using hi)]; ring
      _ = 0 := by rw [Finset.sum_sub_distrib, hk, hk', sub_zero]
  have hβ : β' = fun l => β l + c * b0 l := by
    funext l
    have := congrFun hv l
    simp only [Pi.zero_apply] at this
    linear_combination this
  rw [hβ, fitted_add]
  have : fitted x b0 i = 1 := hb i
  rw [this, mul_one]

lemma wCont_treated (d tr : ι → Bool) (ps w : ι → K) (i : ι) (h : d i = true) : wCont d tr ps w i = 0 := by
  unfold wCont; rw [ind_true h]; ring

lemma wTreat_control (d tr : ι → Bool) (w : ι → K) (i : ι) (h : d i = false) : wTreat d tr w i = 0 := by
  unfold wTreat; rw [ind_false h]; ring

/-- Outcomes after adding a unit-specific level `u`, a common period shock `c` and an effect `δ` on the treated. -/
def shifted1 (y1 u : ι → K) (d : ι → Bool) (c δ : K) (i : ι) : K := y1 i + u i + c + (if d i then δ else 0)

lemma shift_treat {d tr : ι → Bool} {w v v' : ι → K} {δ : K} (hm : mean (wTreat d tr w) ≠ 0)
    (h : ∀ i, d i = true → v' i = v i + δ) : wmean (wTreat d tr w) v' = wmean (wTreat d tr w) v + δ := by
  conv_rhs => rw [← wmean_const (wTreat d tr w) δ hm, ← wmean_add]
  apply wmean_congr
  intro i hi
  cases hd : d i
  · exact absurd (wTreat_control d tr w i hd) hi
  · exact h i hd

lemma same_cont {d tr : ι → Bool} {ps w v v' : ι → K}
    (h : ∀ i, d i = false → v' i = v i) : wmean (wCont d tr ps w) v' = wmean (wCont d tr ps w) v := by
  apply wmean_congr
  intro i hi
  cases hd : d i
  · exact h i hd
  · exact absurd (wCont_treated d tr ps w i hd) hi

/-- **C26 (outcomes, DR).** Unit levels and common shocks drop out and an effect `δ` on the treated's later outcome is
added to the estimate one for one: for a design that spans the constant and is of full rank among comparison units. -/
theorem C26_dr_outcome_shift (ols : OLS ι κ K) (logit : Logit ι κ K) (lo hi level : K)
    (y1 y0 u : ι → K) (d : ι → Bool) (x : ι → κ → K) (w : ι → K) (c δ a : K) (b0 : κ → K)
    (hb : ∀ i, ∑ l, x i l * b0 l = 1)
    (hr : FullRank (normalize w) (notB d) x)
    (hols : ∀ y, NormalEq (normalize w) (notB d) x y (ols (normalize w) (notB d) x y))
    (hok : drdidPanel ols logit lo hi level y1 y0 d x w = .ok a) :
    drdidPanel ols logit lo hi level (shifted1 y1 u d c δ) (fun i => y0 i + u i) d x w = .ok (a + δ) := by
  unfold drdidPanel at hok ⊢
  split_ifs at hok with h1 h2 h3
  rw [if_neg h1]
  simp only [not_not.2 h2, not_not.2 h3, if_false]
  simp only at hok ⊢
  split_ifs at hok with h4 h5
  rw [if_neg h4, if_neg h5]
  simp only [Except.ok.injEq] at hok ⊢
  rw [← hok]
  unfold drPanel
  have hfit := fit_shift (c := c) hr (hols (fun i => y1 i - y0 i))
    (hols (fun i => shifted1 y1 u d c δ i - (y0 i + u i))) hb (by
      intro i hi
      have : d i = false := by simpa [notB] using hi
      simp only [shifted1, this]
      simp; ring)
  rw [shift_treat (δ := δ) (v := fun i => y1 i - y0 i -
      fitted x (ols (normalize w) (notB d) x fun i => y1 i - y0 i) i) h4 (by
        intro i hi; simp only [hfit]; simp only [shifted1, hi]; simp; ring)]
  rw [same_cont (v := fun i => y1 i - y0 i -
      fitted x (ols (normalize w) (notB d) x fun i => y1 i - y0 i) i) (by
        intro i hi; simp only [hfit]; simp only [shifted1, hi]; simp; ring)]
  ring

/-- **C26 (outcomes, IPW).** The same without any condition on the fits, provided no trimmed-away arm. -/
theorem C26_ipw_outcome_shift (logit : Logit ι κ K) (lo hi level : K)
    (y1 y0 u : ι → K) (d : ι → Bool) (x : ι → κ → K) (w : ι → K) (c δ a : K)
    (hok : stdIpwDidPanel logit lo hi level y1 y0 d x w = .ok (some a)) :
    stdIpwDidPanel logit lo hi level (shifted1 y1 u d c δ) (fun i => y0 i + u i) d x w = .ok (some (a + δ)) := by
  unfold stdIpwDidPanel at hok ⊢
  split_ifs at hok with h1 h2 h3
  rw [if_neg h1]
  simp only [not_not.2 h2, not_not.2 h3, if_false]
  simp only at hok ⊢
  split_ifs at hok with h4 h5
  · simp at hok
  · simp at hok
  rw [if_neg h4, if_neg h5]
  simp only [Except.ok.injEq, Option.some.injEq] at hok ⊢
  rw [← hok]
  have key : ∀ (d tr : ι → Bool) (ps w dy : ι → K), ipwPanel d tr ps dy w =
      wmean (wTreat d tr w) dy - wmean (wCont d tr ps w) dy := by
    intro d tr ps w dy
    rw [← hmean_eq_wmean, ← hmean_eq_wmean]; rfl
  rw [key, key]
  rw [shift_treat (δ := c + δ) (v := fun i => y1 i - y0 i) h4 (by
        intro i hi; simp only [shifted1, hi]; simp; ring)]
  have h6 : wmean (wCont d (trim level d (clip lo hi (logit (normalize w) d x)))
        (clip lo hi (logit (normalize w) d x)) (normalize w)) (fun i => shifted1 y1 u d c δ i - (y0 i + u i)) =
      wmean (wCont d (trim level d (clip lo hi (logit (normalize w) d x)))
        (clip lo hi (logit (normalize w) d x)) (normalize w)) (fun i => y1 i - y0 i) + c := by
    rw [same_cont (v := fun i => (y1 i - y0 i) + c) (by
        intro i hi; simp only [shifted1, hi]; simp; ring), wmean_add, wmean_const _ _ h5]
  rw [h6]
  ring

/-- **C26 (outcomes, REG).** -/
theorem C26_reg_outcome_shift (ols : OLS ι κ K)
    (y1 y0 u : ι → K) (d : ι → Bool) (x : ι → κ → K) (w : ι → K) (c δ a : K) (b0 : κ → K)
    (hb : ∀ i, ∑ l, x i l * b0 l = 1)
    (hr : FullRank (normalize w) (notB d) x)
    (hols : ∀ y, NormalEq (normalize w) (notB d) x y (ols (normalize w) (notB d) x y))
    (hT : ∑ i with d i = true, normalize w i ≠ 0)
    (hok : regDidPanel ols y1 y0 d x w = .ok (some a)) :
    regDidPanel ols (shifted1 y1 u d c δ) (fun i => y0 i + u i) d x w = .ok (some (a + δ)) := by
  have hne : Nonempty ι := by
    by_contra hn
    rw [not_nonempty_iff] at hn
    simp at hT
  have e1 : (fun i => normalize w i * ind d i) = wTreat d (fun _ => true) (normalize w) := by
    funext i; unfold wTreat; rw [ind_true (b := fun _ => true) rfl]; ring
  have hT' : mean (wTreat d (fun _ => true) (normalize w)) ≠ 0 := by
    rw [← e1, show (fun i => normalize w i * ind d i) = fun i => ind d i * normalize w i by funext i; ring,
      Ne, mean_eq_zero, sum_ind]
    exact hT
  unfold regDidPanel at hok ⊢
  split_ifs at hok with h1
  rw [if_neg h1]
  simp only [e1, if_neg hT'] at hok ⊢
  split_ifs at hok with h2 h3
  · simp at hok
  rw [if_neg h2, if_neg h3]
  simp only [Except.ok.injEq, Option.some.injEq] at hok ⊢
  rw [← hok]
  unfold regPanel
  have hfit := fit_shift (c := c) hr (hols (fun i => y1 i - y0 i))
    (hols (fun i => shifted1 y1 u d c δ i - (y0 i + u i))) hb (by
      intro i hi
      have : d i = false := by simpa [notB] using hi
      simp only [shifted1, this]
      simp; ring)
  rw [e1, shift_treat (δ := c + δ) (v := fun i => y1 i - y0 i) hT' (by
        intro i hi; simp only [shifted1, hi]; simp; ring)]
  rw [shift_treat (δ := c) (v' := fitted x (ols (normalize w) (notB d) x fun i =>
      shifted1 y1 u d c δ i - (y0 i + u i))) (v := fitted x (ols (normalize w) (notB d) x fun i => y1 i - y0 i)) hT' (by
        intro i _; exact hfit i)]
  ring

lemma exOls_normal (w : Fin 5 → ℚ) (sel : Fin 5 → Bool) (hw : ∑ i with sel i = true, w i ≠ 0) (y : Fin 5 → ℚ) :
    NormalEq w sel (fun _ _ => 1) y (exOls w sel (fun _ _ => 1) y) := by
  intro k
  simp only [mul_one, mul_sub, Finset.sum_sub_distrib, exOls, one_mul, Finset.univ_unique, Finset.sum_singleton]
  rw [← Finset.sum_mul, mul_div_cancel₀ _ hw, sub_self]

lemma exRank (w : Fin 5 → ℚ) (sel : Fin 5 → Bool) (hw : ∑ i with sel i = true, w i ≠ 0) :
    FullRank w sel (fun _ (_ : Unit) => 1) := by
  intro v hv
  have h := hv ()
  simp only [mul_one, one_mul, Finset.univ_unique, Finset.sum_singleton, PUnit.default_eq_unit,
    ← Finset.sum_mul] at h
  funext k
  exact (mul_eq_zero.1 h).resolve_left hw

/-- The hypotheses of the outcome-shift theorems are met by the five-unit example: shifting unit levels by `i`, adding a
shock of 10 and an effect of 4 moves the estimate from 6 to 10. -/
example : drdidPanel exOls exLogit (1/1000000) (999999/1000000) (995/1000)
    (shifted1 exY1 (fun i => (i : ℚ)) exD 10 4) (fun i => exY0 i + i) exD (fun _ _ => 1) exW = .ok (6 + 4) := by
  apply C26_dr_outcome_shift exOls exLogit (1/1000000) (999999/1000000) (995/1000) exY1 exY0 _ exD _ exW 10 4 6
    (fun _ => 1)
  · intro i; simp
  · exact exRank _ _ (by decide +kernel)
  · intro y; exact exOls_normal _ _ (by decide +kernel) y
  · decide +kernel

/-! ## C28: double robustness -/

lemma wmean_fitted (u : ι → K) (x : ι → κ → K) (β : κ → K) :
    wmean u (fitted x β) = ∑ k, wmean u (fun i => x i k) * β k := by
  unfold wmean mean fitted
  rw [← Finset.sum_congr rfl (fun k _ => (by ring :
    (∑ i, u i * x i k) * β k / (Fintype.card ι : K) / ((∑ i, u i) / (Fintype.card ι : K)) =
    (∑ i, u i * x i k) / (Fintype.card ι : K) / ((∑ i, u i) / (Fintype.card ι : K)) * β k))]
  rw [← Finset.sum_div, ← Finset.sum_div]
  congr 2
  simp only [Finset.mul_sum, Finset.sum_mul]
  rw [Finset.sum_comm]
  exact Finset.sum_congr rfl fun k _ => Finset.sum_congr rfl fun i _ => by ring

/-- **C28 (a).** If the outcome regression reproduces the changes of all comparison units, the DR estimate is the same
for any two propensity scores (and trimming choices) leaving weight on the treated: it is the treated mean of the
residuals. -/
theorem C28_exact_outcome_model (d tr tr' : ι → Bool) (ps ps' out dy w : ι → K)
    (hfit : ∀ i, d i = false → out i = dy i) (htr : ∀ i, d i = true → tr i = true ∧ tr' i = true) :
    drPanel d tr ps out dy w = drPanel d tr' ps' out dy w := by
  unfold drPanel
  rw [same_cont (ps := ps) (v := fun _ => 0) (by intro i hi; rw [hfit i hi, sub_self]),
    same_cont (ps := ps') (v := fun _ => 0) (by intro i hi; rw [hfit i hi, sub_self])]
  have : wTreat d tr w = wTreat d tr' w := by
    funext i
    cases h : d i
    · rw [wTreat_control _ _ _ _ h, wTreat_control _ _ _ _ h]
    · unfold wTreat; rw [ind_true (htr i h).1, ind_true (htr i h).2]
  rw [this]
  simp [wmean, mean]

/-- Odds-weighted comparison units match the treated in every covariate mean. -/
def Balanced (d tr : ι → Bool) (ps w : ι → K) (x : ι → κ → K) : Prop :=
  ∀ k, wmean (wCont d tr ps w) (fun i => x i k) = wmean (wTreat d tr w) (fun i => x i k)

/-- **C28 (b).** If the odds-weighted comparison units balance the covariates of the treated, the DR estimate is the
same for all outcome coefficients, and equals the IPW estimate. -/
theorem C28_balancing_scores (d tr : ι → Bool) (ps dy w : ι → K) (x : ι → κ → K) (β β' : κ → K)
    (hbal : Balanced d tr ps w x) :
    drPanel d tr ps (fitted x β) dy w = drPanel d tr ps (fitted x β') dy w ∧
    drPanel d tr ps (fitted x β) dy w = ipwPanel d tr ps dy w := by
  have key : ∀ β, drPanel d tr ps (fitted x β) dy w = ipwPanel d tr ps dy w := by
    intro β
    have e : ipwPanel d tr ps dy w = wmean (wTreat d tr w) dy - wmean (wCont d tr ps w) dy := by
      rw [← hmean_eq_wmean, ← hmean_eq_wmean]; rfl
    unfold drPanel
    have e2 : ∑ k, wmean (wCont d tr ps w) (fun i => x i k) * β k =
        ∑ k, wmean (wTreat d tr w) (fun i => x i k) * β k :=
      Finset.sum_congr rfl fun k _ => by rw [hbal k]
    rw [wmean_sub, wmean_sub, e, wmean_fitted, wmean_fitted, e2]
    ring
  exact ⟨by rw [key, key], key β⟩

/-- **C28 (recovery).** When untreated changes are linear in the covariates, `drdid_panel` returns exactly the
weighted average effect on the treated if EITHER the regression is a least-squares fit of full rank OR the fitted
scores balance the covariates; the other ingredient is arbitrary. -/
theorem C28_recovers_effect (ols : OLS ι κ K) (logit : Logit ι κ K) (lo hi level : K)
    (y1 y0 : ι → K) (d : ι → Bool) (x : ι → κ → K) (w τ : ι → K) (b : κ → K) (a : K)
    (hmean : mean w ≠ 0)
    (hdgp : ∀ i, y1 i - y0 i = ∑ k, x i k * b k + (if d i then τ i else 0))
    (hor :
      (FullRank (normalize w) (notB d) x ∧ NormalEq (normalize w) (notB d) x (fun i => y1 i - y0 i)
        (ols (normalize w) (notB d) x (fun i => y1 i - y0 i)))
      ∨ Balanced d (trim level d (clip lo hi (logit (normalize w) d x))) (clip lo hi (logit (normalize w) d x))
          (normalize w) x)
    (hok : drdidPanel ols logit lo hi level y1 y0 d x w = .ok a) :
    a = wavg w (fun i => d i = true) τ := by
  unfold drdidPanel at hok
  split_ifs at hok with h1 h2 h3
  simp only at hok
  split_ifs at hok with h4 h5
  simp only [Except.ok.injEq] at hok
  have hne : Nonempty ι := ⟨h2.choose⟩
  set ps := clip lo hi (logit (normalize w) d x)
  set tr := trim level d ps
  have goal : drPanel d tr ps (fitted x b) (fun i => y1 i - y0 i) (normalize w) = wavg w (fun i => d i = true) τ := by
    unfold drPanel
    rw [same_cont (v := fun _ => 0) (by
      intro i hi; simp only [hdgp, hi, fitted]; simp)]
    have : wmean (wTreat d tr (normalize w)) (fun i => y1 i - y0 i - fitted x b i) =
        wmean (wTreat d tr (normalize w)) τ := by
      apply wmean_congr
      intro i hi
      cases hd : d i
      · exact absurd (wTreat_control _ _ _ _ hd) hi
      · simp only [hdgp, hd, fitted]; simp
    rw [this, wTreat_trim, wmean_group, wavg_normalize _ _ hmean]
    simp [wmean, mean]
  rcases hor with ⟨hr, hn⟩ | hbal
  · have hb : ols (normalize w) (notB d) x (fun i => y1 i - y0 i) = b := by
      set β := ols (normalize w) (notB d) x (fun i => y1 i - y0 i)
      have hv : (fun l => b l - β l) = 0 := by
        apply hr
        intro k
        rw [← hn k]
        refine Finset.sum_congr rfl fun i hi => ?_
        have hd : d i = false := by simpa [notB] using hi
        simp only [hdgp, hd, mul_sub, Finset.sum_sub_distrib]
        simp
      funext l
      have := congrFun hv l
      simp only [Pi.zero_apply] at this
      linear_combination -this
    rw [hb] at hok
    rw [← hok, goal]
  · rw [← hok, (C28_balancing_scores d tr ps _ _ x _ b hbal).1, goal]

/-- Untreated changes are `5` for everyone here and effects are `1` and `4`: hypotheses met, estimate `3`. -/
example : drdidPanel exOls exLogit (1/1000000) (999999/1000000) (995/1000)
    (![6, 9, 5, 5, 5] : Fin 5 → ℚ) 0 exD (fun _ _ => 1) exW = .ok 3 ∧
    (3 : ℚ) = wavg exW (fun i => exD i = true) ![1, 4, 0, 0, 0] := by
  have h : drdidPanel exOls exLogit (1/1000000) (999999/1000000) (995/1000)
    (![6, 9, 5, 5, 5] : Fin 5 → ℚ) 0 exD (fun _ _ => 1) exW = .ok 3 := by decide +kernel
  refine ⟨h, C28_recovers_effect exOls exLogit _ _ _ _ _ exD _ exW _ (fun _ => 5) 3 (by decide +kernel)
    (by decide +kernel) (Or.inl ⟨exRank _ _ (by decide +kernel), exOls_normal _ _ (by decide +kernel) _⟩) h⟩

/-! ## C30: trimming -/

/-- **C30 (who is trimmed).** An observation is trimmed iff it is a comparison observation whose (clipped) score
reaches the level. -/
theorem C30_trimmed_iff (level : K) (d : ι → Bool) (ps : ι → K) (i : ι) :
    trim level d ps i = false ↔ d i = false ∧ level ≤ ps i := by
  unfold trim
  cases h : d i <;> simp

/-- **C30 (treated unaffected).** The treated weights, hence the treated component of each estimator, are those of the
untrimmed sample for every level. -/
theorem C30_treated_unaffected (level : K) (d : ι → Bool) (ps w v : ι → K) :
    wmean (wTreat d (trim level d ps) w) v = wmean (fun i => w i * (if d i then 1 else 0)) v := by
  rw [wTreat_trim]
  congr 1
  funext i
  unfold ind
  ring

/-- **C30 (controls removed).** The comparison weights are exactly those of the untrimmed sample with the trimmed
observations set to zero. -/
theorem C30_controls_zeroed (level : K) (d : ι → Bool) (ps w : ι → K) (i : ι) :
    wCont d (trim level d ps) ps w i =
      if d i = true ∨ level ≤ ps i then 0 else w i * (ps i / (1 - ps i)) := by
  unfold wCont
  cases h : d i
  · by_cases hl : level ≤ ps i
    · rw [ind_false (b := trim level d ps) (by rw [C30_trimmed_iff]; exact ⟨h, hl⟩)]
      simp [hl]
    · have : trim level d ps i = true := by
        rw [← Bool.not_eq_false, C30_trimmed_iff]; tauto
      rw [ind_true this, ind_false h]
      simp [hl]; ring
  · rw [ind_true h]; simp

/-- **C30 (no effect below the level).** If every comparison score is below two levels, both give the same result. -/
theorem C30_inactive (ols : OLS ι κ K) (logit : Logit ι κ K) (lo hi level level' : K)
    (y1 y0 : ι → K) (d : ι → Bool) (x : ι → κ → K) (w : ι → K)
    (h : ∀ i, d i = false → clip lo hi (logit (normalize w) d x) i < level ∧
      clip lo hi (logit (normalize w) d x) i < level') :
    drdidPanel ols logit lo hi level y1 y0 d x w = drdidPanel ols logit lo hi level' y1 y0 d x w ∧
    stdIpwDidPanel logit lo hi level y1 y0 d x w = stdIpwDidPanel logit lo hi level' y1 y0 d x w := by
  have : trim level d (clip lo hi (logit (normalize w) d x)) =
      trim level' d (clip lo hi (logit (normalize w) d x)) := by
    funext i
    unfold trim
    cases hd : d i
    · simp [h i hd]
    · rfl
  unfold drdidPanel stdIpwDidPanel
  simp only [this, and_self]

example : trim (1/2 : ℚ) ![true, false, false] ![9/10, 9/10, 1/10] = ![true, false, true] := by decide +kernel

end Verif.DR
