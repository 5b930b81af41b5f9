import Verif.DR.MeanZero
import Mathlib.Analysis.SpecialFunctions.ExpDeriv
import Mathlib.Analysis.Calculus.Deriv.Prod
import Mathlib.Analysis.Calculus.Deriv.Pi
import Mathlib.Analysis.Calculus.Deriv.Inv

set_option linter.unusedSectionVars false

/-!
# Influence functions are derivatives of the estimate: C72

Specification: the influence value of observation `i` is the derivative of the estimate when the weight of `i` is
increased by the factor `1 + n t`, the outcome regressions and the propensity score being refitted to the perturbed
weights (the infinitesimal jackknife).  The clipping of scores and the trimming set are held fixed.
-/

namespace Verif.DR

open Filter Topology

variable {ι κ : Type*} [Fintype ι] [Fintype κ] [DecidableEq ι]

/-- Weights after up-weighting observation `i`. -/
def upw (w : ι → ℝ) (i : ι) (t : ℝ) (j : ι) : ℝ := w j * (1 + (if j = i then (Fintype.card ι : ℝ) * t else 0))

/-- The logit link. -/
noncomputable def logistic (z : ℝ) : ℝ := 1 / (1 + Real.exp (-z))

/-- Scores of the logit model with coefficients `γ`. -/
noncomputable def psOf (x : ι → κ → ℝ) (γ : κ → ℝ) (j : ι) : ℝ := logistic (fitted x γ j)

/-- `β` is a differentiable path of least-squares coefficients for the perturbed weights. -/
structure RefitOLS (w : ι → ℝ) (i : ι) (sel : ι → Bool) (x : ι → κ → ℝ) (y : ι → ℝ) (β : ℝ → κ → ℝ) : Prop where
  diff : ∀ k, DifferentiableAt ℝ (fun t => β t k) 0
  fit : ∀ᶠ t in 𝓝 0, NormalEq (upw w i t) sel x y (β t)

/-- `γ` is a differentiable path of logit maximum-likelihood coefficients for the perturbed weights. -/
structure RefitLogit (w : ι → ℝ) (i : ι) (d : ι → Bool) (x : ι → κ → ℝ) (γ : ℝ → κ → ℝ) : Prop where
  diff : ∀ k, DifferentiableAt ℝ (fun t => γ t k) 0
  fit : ∀ᶠ t in 𝓝 0, ScoreEq (upw w i t) d x (psOf x (γ t))

/-- `M` is the inverse of the weighted Gram matrix `mean(v x x')`. -/
def IsGramInv [DecidableEq κ] (v : ι → ℝ) (x : ι → κ → ℝ) (M : κ → κ → ℝ) : Prop :=
  ∀ k m, ∑ l, mean (fun j => v j * x j k * x j l) * M l m = if k = m then 1 else 0

/-! ## Calculus -/

lemma logistic_pos (z : ℝ) : 0 < logistic z := by unfold logistic; positivity
lemma one_sub_logistic (z : ℝ) : 1 - logistic z = Real.exp (-z) / (1 + Real.exp (-z)) := by
  unfold logistic
  have : (1 + Real.exp (-z)) ≠ 0 := by positivity
  field_simp
  ring

lemma odds_logistic (z : ℝ) : logistic z / (1 - logistic z) = Real.exp z := by
  rw [one_sub_logistic]
  unfold logistic
  have h1 : (1 + Real.exp (-z)) ≠ 0 := by positivity
  have h2 : Real.exp (-z) ≠ 0 := by positivity
  rw [div_div_div_cancel_right₀ h1, Real.exp_neg, one_div, inv_inv]

lemma hasDerivAt_logistic (z : ℝ) : HasDerivAt logistic (logistic z * (1 - logistic z)) z := by
  have h1 : (1 + Real.exp (-z)) ≠ 0 := by positivity
  have h := ((Real.hasDerivAt_exp (-z)).comp z (hasDerivAt_neg z)).const_add 1
  have h2 := h.fun_inv h1
  have e : logistic = fun z => (1 + (Real.exp ∘ Neg.neg) z)⁻¹ := by
    funext z; unfold logistic; simp
  rw [e]
  refine h2.congr_deriv ?_
  simp only [Function.comp]
  field_simp
  ring

lemma hasDerivAt_mean {f : ι → ℝ → ℝ} {f' : ι → ℝ} (h : ∀ j, HasDerivAt (f j) (f' j) 0) :
    HasDerivAt (fun t => mean (fun j => f j t)) (mean f') 0 := by
  unfold mean
  exact (HasDerivAt.fun_sum fun j _ => h j).div_const _

lemma hasDerivAt_upw (w : ι → ℝ) (i j : ι) :
    HasDerivAt (fun t => upw w i t j) (w j * (if j = i then (Fintype.card ι : ℝ) else 0)) 0 := by
  unfold upw
  by_cases h : j = i
  · simp only [h, if_true]
    exact ((((hasDerivAt_id (0:ℝ)).const_mul (Fintype.card ι : ℝ)).const_add 1).const_mul (w i)).congr_deriv (by ring)
  · simp only [h, if_false]
    exact (hasDerivAt_const _ _).congr_deriv (by ring)

lemma upw_zero (w : ι → ℝ) (i : ι) : upw w i 0 = w := by
  funext j; unfold upw; simp

lemma mean_single (w v : ι → ℝ) (i : ι) :
    mean (fun j => w j * (if j = i then (Fintype.card ι : ℝ) else 0) * v j) = w i * v i := by
  have : Nonempty ι := ⟨i⟩
  unfold mean
  simp only [mul_ite, mul_zero, ite_mul, zero_mul, Finset.sum_ite_eq', Finset.mem_univ, if_true]
  rw [mul_assoc, mul_comm (Fintype.card ι : ℝ), ← mul_assoc, mul_div_assoc, div_self card_ne, mul_one]

lemma hasDerivAt_wsum (w : ι → ℝ) (i : ι) {f : ι → ℝ → ℝ} {f' : ι → ℝ} (h : ∀ j, HasDerivAt (f j) (f' j) 0) :
    HasDerivAt (fun t => mean (fun j => upw w i t j * f j t)) (w i * f i 0 + mean (fun j => w j * f' j)) 0 := by
  have := hasDerivAt_mean (fun j => (hasDerivAt_upw w i j).fun_mul (h j))
  refine this.congr_deriv ?_
  rw [mean_add' (fun j => w j * (if j = i then (Fintype.card ι : ℝ) else 0) * f j 0), mean_single, upw_zero]

/-- Derivative of a weighted mean when the weights, their multipliers `a` and the averaged values `v` all move. -/
lemma hasDerivAt_ratio (w : ι → ℝ) (i : ι) {a v : ι → ℝ → ℝ} {a' v' : ι → ℝ}
    (ha : ∀ j, HasDerivAt (a j) (a' j) 0) (hv : ∀ j, HasDerivAt (v j) (v' j) 0)
    (hD : mean (fun j => w j * a j 0) ≠ 0) :
    HasDerivAt (fun t => wmean (fun j => upw w i t j * a j t) (fun j => v j t))
      ((w i * a i 0 * v i 0 - w i * a i 0 * wmean (fun j => w j * a j 0) (fun j => v j 0)
        + mean (fun j => w j * a' j * (v j 0 - wmean (fun j => w j * a j 0) (fun j => v j 0)))
        + mean (fun j => w j * a j 0 * v' j)) / mean (fun j => w j * a j 0)) 0 := by
  unfold wmean
  have hN := hasDerivAt_wsum w i (fun j => (ha j).fun_mul (hv j))
  have hDd := hasDerivAt_wsum w i ha
  have hD0 : mean (fun j => upw w i 0 j * a j 0) ≠ 0 := by rw [upw_zero]; exact hD
  have h := hN.fun_div hDd hD0
  have e : (fun t => mean (fun j => upw w i t j * a j t * v j t) / mean (fun j => upw w i t j * a j t)) =
      fun t => mean (fun j => upw w i t j * (a j t * v j t)) / mean (fun j => upw w i t j * a j t) := by
    funext t; congr 2; funext j; ring
  rw [e]
  refine h.congr_deriv ?_
  simp only [upw_zero]
  set D := mean (fun j => w j * a j 0)
  have e1 : mean (fun j => w j * (a j 0 * v j 0)) = mean (fun j => w j * a j 0 * v j 0) := by
    congr 1; funext j; ring
  rw [e1]
  set N := mean (fun j => w j * a j 0 * v j 0)
  have e2 : mean (fun j => w j * (a' j * v j 0 + a j 0 * v' j)) =
      mean (fun j => w j * a' j * v j 0) + mean (fun j => w j * a j 0 * v' j) := by
    rw [← mean_add']; congr 1; funext j; ring
  have e3 : mean (fun j => w j * a' j * (v j 0 - N / D)) =
      mean (fun j => w j * a' j * v j 0) - mean (fun j => w j * a' j) * (N / D) := by
    rw [← mean_mul', ← mean_sub']; congr 1; funext j; ring
  rw [e2, e3]
  field_simp
  ring

lemma hasDerivAt_fitted (x : ι → κ → ℝ) {β : ℝ → κ → ℝ} {β' : κ → ℝ}
    (h : ∀ k, HasDerivAt (fun t => β t k) (β' k) 0) (j : ι) :
    HasDerivAt (fun t => fitted x (β t) j) (fitted x β' j) 0 := by
  unfold fitted
  exact HasDerivAt.fun_sum fun k _ => (h k).const_mul _

lemma hasDerivAt_psOf (x : ι → κ → ℝ) {γ : ℝ → κ → ℝ} {γ' : κ → ℝ}
    (h : ∀ k, HasDerivAt (fun t => γ t k) (γ' k) 0) (j : ι) :
    HasDerivAt (fun t => psOf x (γ t) j) (psOf x (γ 0) j * (1 - psOf x (γ 0) j) * fitted x γ' j) 0 := by
  unfold psOf
  exact (hasDerivAt_logistic _).comp (0:ℝ) (hasDerivAt_fitted x h j)

lemma hasDerivAt_odds (x : ι → κ → ℝ) {γ : ℝ → κ → ℝ} {γ' : κ → ℝ}
    (h : ∀ k, HasDerivAt (fun t => γ t k) (γ' k) 0) (j : ι) :
    HasDerivAt (fun t => psOf x (γ t) j / (1 - psOf x (γ t) j))
      (psOf x (γ 0) j / (1 - psOf x (γ 0) j) * fitted x γ' j) 0 := by
  unfold psOf
  simp only [odds_logistic]
  exact (Real.hasDerivAt_exp _).comp (0:ℝ) (hasDerivAt_fitted x h j)

lemma mean_fitted (u : ι → ℝ) (x : ι → κ → ℝ) (b : κ → ℝ) :
    mean (fun j => u j * fitted x b j) = dot b (fun k => mean (fun j => u j * x j k)) := by
  unfold mean dot fitted
  simp only [Finset.mul_sum, Finset.sum_div]
  rw [Finset.sum_comm]
  refine Finset.sum_congr rfl fun k _ => ?_
  exact Finset.sum_congr rfl fun i _ => by ring

/-- Solving `row = G b` with a right inverse of the symmetric matrix `G`. -/
lemma solve_gram [DecidableEq κ] {v : ι → ℝ} {x : ι → κ → ℝ} {M : κ → κ → ℝ} (hM : IsGramInv v x M)
    {r b : κ → ℝ} (h : ∀ k, r k = ∑ l, mean (fun j => v j * x j k * x j l) * b l) (m : κ) :
    ∑ k, r k * M k m = b m := by
  calc ∑ k, r k * M k m = ∑ k, ∑ l, mean (fun j => v j * x j k * x j l) * b l * M k m := by
        refine Finset.sum_congr rfl fun k _ => ?_
        rw [h, Finset.sum_mul]
    _ = ∑ l, b l * ∑ k, mean (fun j => v j * x j l * x j k) * M k m := by
        rw [Finset.sum_comm]
        refine Finset.sum_congr rfl fun l _ => ?_
        rw [Finset.mul_sum]
        refine Finset.sum_congr rfl fun k _ => ?_
        have : mean (fun j => v j * x j k * x j l) = mean (fun j => v j * x j l * x j k) := by
          congr 1; funext j; ring
        rw [this]; ring
    _ = b m := by
        simp only [hM _ m]
        simp

/-- The refitted least-squares path moves in the direction the code calls the asymptotic linear representation. -/
lemma RefitOLS.deriv [DecidableEq κ] {w : ι → ℝ} {i : ι} {sel : ι → Bool} {x : ι → κ → ℝ} {y : ι → ℝ} {β : ℝ → κ → ℝ}
    (h : RefitOLS w i sel x y β) {s : ι → ℝ} (hs : ∀ j, s j = if sel j then 1 else 0) {M : κ → κ → ℝ}
    (hM : IsGramInv (fun j => w j * s j) x M) (k : κ) :
    HasDerivAt (fun t => β t k) (alrOLS s w (fun j => y j - fitted x (β 0) j) x M i k) 0 := by
  have hd : ∀ k, HasDerivAt (fun t => β t k) (_root_.deriv (fun t => β t k) 0) 0 := fun k => (h.diff k).hasDerivAt
  set b : κ → ℝ := fun k => _root_.deriv (fun t => β t k) 0 with hb
  have key : ∀ k, w i * s i * (y i - fitted x (β 0) i) * x i k =
      ∑ l, mean (fun j => w j * s j * x j k * x j l) * b l := by
    intro k
    have h1 : HasDerivAt (fun t => mean (fun j => upw w i t j * (s j * (y j - fitted x (β t) j) * x j k)))
        (w i * (s i * (y i - fitted x (β 0) i) * x i k) +
          mean (fun j => w j * (s j * (-(fitted x b j)) * x j k))) 0 := by
      apply hasDerivAt_wsum w i (f := fun j t => s j * (y j - fitted x (β t) j) * x j k)
      intro j
      exact (((hasDerivAt_fitted x hd j).const_sub (y j)).const_mul (s j)).mul_const (x j k)
    have h2 : (fun t => mean (fun j => upw w i t j * (s j * (y j - fitted x (β t) j) * x j k))) =ᶠ[𝓝 0]
        fun _ => 0 := by
      filter_upwards [h.fit] with t ht
      unfold mean
      have := ht k
      rw [Finset.sum_filter] at this
      rw [show (∑ j, upw w i t j * (s j * (y j - fitted x (β t) j) * x j k)) = 0 from ?_, zero_div]
      rw [← this]
      refine Finset.sum_congr rfl fun j _ => ?_
      rw [hs]
      unfold fitted
      by_cases hj : sel j = true <;> simp [hj]
      ring
    have h3 := h1.unique ((hasDerivAt_const (0:ℝ) (0:ℝ)).congr_of_eventuallyEq h2)
    have e : mean (fun j => w j * (s j * (-(fitted x b j)) * x j k)) =
        - ∑ l, mean (fun j => w j * s j * x j k * x j l) * b l := by
      have := mean_fitted (fun j => w j * s j * x j k) x b
      unfold dot at this
      rw [show (∑ l, mean (fun j => w j * s j * x j k * x j l) * b l) =
        ∑ l, b l * mean (fun j => w j * s j * x j k * x j l) from
        Finset.sum_congr rfl fun l _ => mul_comm _ _, ← this]
      unfold mean
      rw [← neg_div, ← Finset.sum_neg_distrib]
      congr 1
      exact Finset.sum_congr rfl fun j _ => by ring
    rw [e] at h3
    linear_combination h3
  have := solve_gram hM key k
  unfold alrOLS
  rw [this]
  exact hd k

/-- The refitted logit path moves in the direction of the code's `asy_lin_rep_ps`. -/
lemma RefitLogit.deriv [DecidableEq κ] {w : ι → ℝ} {i : ι} {d : ι → Bool} {x : ι → κ → ℝ} {γ : ℝ → κ → ℝ}
    (h : RefitLogit w i d x γ) {H : κ → κ → ℝ}
    (hH : IsGramInv (fun j => psOf x (γ 0) j * (1 - psOf x (γ 0) j) * w j) x H) (k : κ) :
    HasDerivAt (fun t => γ t k) (alrPS d (psOf x (γ 0)) w x H i k) 0 := by
  have hd : ∀ k, HasDerivAt (fun t => γ t k) (_root_.deriv (fun t => γ t k) 0) 0 := fun k => (h.diff k).hasDerivAt
  set b : κ → ℝ := fun k => _root_.deriv (fun t => γ t k) 0 with hb
  have key : ∀ k, w i * (ind d i - psOf x (γ 0) i) * x i k =
      ∑ l, mean (fun j => psOf x (γ 0) j * (1 - psOf x (γ 0) j) * w j * x j k * x j l) * b l := by
    intro k
    have h1 : HasDerivAt (fun t => mean (fun j => upw w i t j * ((ind d j - psOf x (γ t) j) * x j k)))
        (w i * ((ind d i - psOf x (γ 0) i) * x i k) +
          mean (fun j => w j * (-(psOf x (γ 0) j * (1 - psOf x (γ 0) j) * fitted x b j) * x j k))) 0 := by
      apply hasDerivAt_wsum w i (f := fun j t => (ind d j - psOf x (γ t) j) * x j k)
      intro j
      exact ((hasDerivAt_psOf x hd j).const_sub _).mul_const (x j k)
    have h2 : (fun t => mean (fun j => upw w i t j * ((ind d j - psOf x (γ t) j) * x j k))) =ᶠ[𝓝 0]
        fun _ => 0 := by
      filter_upwards [h.fit] with t ht
      unfold mean
      rw [show (∑ j, upw w i t j * ((ind d j - psOf x (γ t) j) * x j k)) = 0 from ?_, zero_div]
      rw [← ht k]
      refine Finset.sum_congr rfl fun j _ => ?_
      unfold ind
      ring
    have h3 := h1.unique ((hasDerivAt_const (0:ℝ) (0:ℝ)).congr_of_eventuallyEq h2)
    have e : mean (fun j => w j * (-(psOf x (γ 0) j * (1 - psOf x (γ 0) j) * fitted x b j) * x j k)) =
        - ∑ l, mean (fun j => psOf x (γ 0) j * (1 - psOf x (γ 0) j) * w j * x j k * x j l) * b l := by
      have := mean_fitted (fun j => psOf x (γ 0) j * (1 - psOf x (γ 0) j) * w j * x j k) x b
      unfold dot at this
      rw [show (∑ l, mean (fun j => psOf x (γ 0) j * (1 - psOf x (γ 0) j) * w j * x j k * x j l) * b l) =
        ∑ l, b l * mean (fun j => psOf x (γ 0) j * (1 - psOf x (γ 0) j) * w j * x j k * x j l) from
        Finset.sum_congr rfl fun l _ => mul_comm _ _, ← this]
      unfold mean
      rw [← neg_div, ← Finset.sum_neg_distrib]
      congr 1
      exact Finset.sum_congr rfl fun j _ => by ring
    rw [e] at h3
    linear_combination h3
  have := solve_gram hH key k
  unfold alrPS
  rw [this]
  exact hd k

/-! ## Panel estimators -/

lemma mean_neg_fitted (u : ι → ℝ) (x : ι → κ → ℝ) (b : κ → ℝ) :
    mean (fun j => u j * -(fitted x b j)) = - dot b (fun k => mean (fun j => u j * x j k)) := by
  rw [← mean_fitted]
  unfold mean
  rw [← neg_div, ← Finset.sum_neg_distrib]
  congr 1
  exact Finset.sum_congr rfl fun j _ => by ring

lemma wTreat_upw (d tr : ι → Bool) (w : ι → ℝ) :
    wTreat d tr w = fun j => w j * (ind tr j * ind d j) := by
  funext j; unfold wTreat; ring

lemma wCont_upw (d tr : ι → Bool) (ps w : ι → ℝ) :
    wCont d tr ps w = fun j => w j * (ind tr j * (1 - ind d j) * (ps j / (1 - ps j))) := by
  funext j; unfold wCont; ring

/-- Treated component: fixed multipliers, moving regression. -/
lemma hasDerivAt_treatComp (w a y : ι → ℝ) (i : ι) (x : ι → κ → ℝ) {β : ℝ → κ → ℝ} {b : κ → ℝ}
    (hb : ∀ k, HasDerivAt (fun t => β t k) (b k) 0) (hD : mean (fun j => w j * a j) ≠ 0) :
    HasDerivAt (fun t => wmean (fun j => upw w i t j * a j) (fun j => y j - fitted x (β t) j))
      ((w i * a i * (y i - fitted x (β 0) i)
          - w i * a i * wmean (fun j => w j * a j) (fun j => y j - fitted x (β 0) j)
        - dot b (fun k => mean (fun j => w j * a j * x j k))) / mean (fun j => w j * a j)) 0 := by
  have h := hasDerivAt_ratio w i (a := fun j _ => a j) (v := fun j t => y j - fitted x (β t) j)
    (fun j => hasDerivAt_const 0 (a j)) (fun j => (hasDerivAt_fitted x hb j).const_sub (y j)) hD
  refine h.congr_deriv ?_
  have e0 : mean (fun j => w j * 0 * (y j - fitted x (β 0) j -
      wmean (fun j => w j * a j) (fun j => y j - fitted x (β 0) j))) = 0 := by
    simp [mean]
  rw [e0, mean_neg_fitted (fun j => w j * a j)]
  ring

/-- Comparison component: odds multipliers and regression both move. -/
lemma hasDerivAt_contComp (w a y : ι → ℝ) (i : ι) (x : ι → κ → ℝ) {β γ : ℝ → κ → ℝ} {b g : κ → ℝ}
    (hb : ∀ k, HasDerivAt (fun t => β t k) (b k) 0) (hg : ∀ k, HasDerivAt (fun t => γ t k) (g k) 0)
    (hD : mean (fun j => w j * (a j * (psOf x (γ 0) j / (1 - psOf x (γ 0) j)))) ≠ 0) :
    HasDerivAt (fun t => wmean (fun j => upw w i t j * (a j * (psOf x (γ t) j / (1 - psOf x (γ t) j))))
        (fun j => y j - fitted x (β t) j))
      ((let u := fun j => w j * (a j * (psOf x (γ 0) j / (1 - psOf x (γ 0) j)))
        let res := fun j => y j - fitted x (β 0) j
        (u i * res i - u i * wmean u res
        + dot g (fun k => mean (fun j => (u j * res j - u j * wmean u res) * x j k))
        - dot b (fun k => mean (fun j => u j * x j k))) / mean u)) 0 := by
  have h := hasDerivAt_ratio w i (a := fun j t => a j * (psOf x (γ t) j / (1 - psOf x (γ t) j)))
    (v := fun j t => y j - fitted x (β t) j)
    (fun j => (hasDerivAt_odds x hg j).const_mul (a j)) (fun j => (hasDerivAt_fitted x hb j).const_sub (y j)) hD
  refine h.congr_deriv ?_
  simp only
  rw [mean_neg_fitted (fun j => w j * (a j * (psOf x (γ 0) j / (1 - psOf x (γ 0) j))))]
  set R := wmean (fun j => w j * (a j * (psOf x (γ 0) j / (1 - psOf x (γ 0) j)))) (fun j => y j - fitted x (β 0) j)
  have e := mean_fitted (fun j => w j * (a j * (psOf x (γ 0) j / (1 - psOf x (γ 0) j))) * (y j - fitted x (β 0) j)
    - w j * (a j * (psOf x (γ 0) j / (1 - psOf x (γ 0) j))) * R) x g
  rw [← e]
  have e2 : mean (fun j => w j * (a j * (psOf x (γ 0) j / (1 - psOf x (γ 0) j) * fitted x g j)) *
      (y j - fitted x (β 0) j - R)) =
    mean (fun j => (w j * (a j * (psOf x (γ 0) j / (1 - psOf x (γ 0) j))) * (y j - fitted x (β 0) j)
    - w j * (a j * (psOf x (γ 0) j / (1 - psOf x (γ 0) j))) * R) * fitted x g j) := by
    congr 1; funext j; ring
  rw [e2]
  ring

variable [DecidableEq κ]

lemma sel_notB (d : ι → Bool) (j : ι) : (1 - ind d j : ℝ) = if notB d j then 1 else 0 := by
  cases h : d j <;> simp [ind, notB, h]

/-- **C72 (DR panel).** The influence value `drdid_panel` reports for observation `i` is the derivative of its estimate
in the weight of `i`, both nuisance models being refitted. -/
theorem C72_dr_panel (d tr : ι → Bool) (dy w : ι → ℝ) (x : ι → κ → ℝ) (M H : κ → κ → ℝ) (β γ : ℝ → κ → ℝ) (i : ι)
    (hβ : RefitOLS w i (notB d) x dy β) (hγ : RefitLogit w i d x γ)
    (hM : IsGramInv (fun j => w j * (1 - ind d j)) x M)
    (hH : IsGramInv (fun j => psOf x (γ 0) j * (1 - psOf x (γ 0) j) * w j) x H)
    (hT : mean (wTreat d tr w) ≠ 0) (hC : mean (wCont d tr (psOf x (γ 0)) w) ≠ 0) :
    HasDerivAt (fun t => drPanel d tr (psOf x (γ t)) (fitted x (β t)) dy (upw w i t))
      (drPanelIF d tr (psOf x (γ 0)) (fitted x (β 0)) dy w x M H i) 0 := by
  have hb := hβ.deriv (sel_notB d) hM
  have hg := hγ.deriv hH
  rw [wTreat_upw] at hT
  rw [wCont_upw] at hC
  have h := (hasDerivAt_treatComp w (fun j => ind tr j * ind d j) dy i x hb hT).fun_sub
    (hasDerivAt_contComp w (fun j => ind tr j * (1 - ind d j)) dy i x hb hg hC)
  have e : (fun t => drPanel d tr (psOf x (γ t)) (fitted x (β t)) dy (upw w i t)) =
      fun t => wmean (fun j => upw w i t j * (ind tr j * ind d j)) (fun j => dy j - fitted x (β t) j) -
        wmean (fun j => upw w i t j * (ind tr j * (1 - ind d j) * (psOf x (γ t) j / (1 - psOf x (γ t) j))))
          (fun j => dy j - fitted x (β t) j) := by
    funext t; unfold drPanel; rw [wTreat_upw, wCont_upw]
  rw [e]
  refine h.congr_deriv ?_
  unfold drPanelIF
  rw [wTreat_upw, wCont_upw]

/-- **C72 (REG panel).** -/
theorem C72_reg_panel (d : ι → Bool) (dy w : ι → ℝ) (x : ι → κ → ℝ) (M : κ → κ → ℝ) (β : ℝ → κ → ℝ) (i : ι)
    (hβ : RefitOLS w i (notB d) x dy β) (hM : IsGramInv (fun j => w j * (1 - ind d j)) x M)
    (hT : mean (fun j => w j * ind d j) ≠ 0) :
    HasDerivAt (fun t => regPanel d (fitted x (β t)) dy (upw w i t))
      (regPanelIF d (fitted x (β 0)) dy w x M i) 0 := by
  have hb := hβ.deriv (sel_notB d) hM
  have h := hasDerivAt_treatComp w (fun j => ind d j) dy i x hb hT
  have e : (fun t => regPanel d (fitted x (β t)) dy (upw w i t)) =
      fun t => wmean (fun j => upw w i t j * ind d j) (fun j => dy j - fitted x (β t) j) := by
    funext t; unfold regPanel; rw [wmean_sub]
  rw [e]
  refine h.congr_deriv ?_
  unfold regPanelIF
  simp only [wmean_sub]
  ring

/-- **C72 (IPW panel).** -/
theorem C72_ipw_panel (d tr : ι → Bool) (dy w : ι → ℝ) (x : ι → κ → ℝ) (H : κ → κ → ℝ) (γ : ℝ → κ → ℝ) (i : ι)
    (hγ : RefitLogit w i d x γ)
    (hH : IsGramInv (fun j => psOf x (γ 0) j * (1 - psOf x (γ 0) j) * w j) x H)
    (hT : mean (wTreat d tr w) ≠ 0) (hC : mean (wCont d tr (psOf x (γ 0)) w) ≠ 0) :
    HasDerivAt (fun t => ipwPanel d tr (psOf x (γ t)) dy (upw w i t))
      (ipwPanelIF d tr (psOf x (γ 0)) dy w x H i) 0 := by
  have hg := hγ.deriv hH
  have hz : ∀ k : κ, HasDerivAt (fun t : ℝ => (fun (_ : ℝ) (_ : κ) => (0:ℝ)) t k) ((fun _ => 0) k) 0 :=
    fun k => hasDerivAt_const _ _
  rw [wTreat_upw] at hT
  rw [wCont_upw] at hC
  have h := (hasDerivAt_treatComp w (fun j => ind tr j * ind d j) dy i x hz hT).fun_sub
    (hasDerivAt_contComp w (fun j => ind tr j * (1 - ind d j)) dy i x hz hg hC)
  have hf : ∀ j, fitted x (fun _ => (0:ℝ)) j = 0 := by intro j; unfold fitted; simp
  have key : ∀ (d tr : ι → Bool) (ps w dy : ι → ℝ), ipwPanel d tr ps dy w =
      wmean (wTreat d tr w) dy - wmean (wCont d tr ps w) dy := by
    intro d tr ps w dy
    rw [← hmean_eq_wmean, ← hmean_eq_wmean]; rfl
  have e : (fun t => ipwPanel d tr (psOf x (γ t)) dy (upw w i t)) =
      fun t => wmean (fun j => upw w i t j * (ind tr j * ind d j)) (fun j => dy j - fitted x (fun _ => 0) j) -
        wmean (fun j => upw w i t j * (ind tr j * (1 - ind d j) * (psOf x (γ t) j / (1 - psOf x (γ t) j))))
          (fun j => dy j - fitted x (fun _ => 0) j) := by
    funext t; rw [key, wTreat_upw, wCont_upw]; simp only [hf, sub_zero]
  rw [e]
  refine h.congr_deriv ?_
  unfold ipwPanelIF
  simp only [hf, sub_zero]
  rw [wTreat_upw, wCont_upw]
  have hh : ∀ u v : ι → ℝ, mean (fun j => u j * v j / mean u) = wmean u v := by
    intro u v; rw [← hmean_eq_wmean]; rfl
  simp only [hh]
  set u := fun j => w j * (ind tr j * (1 - ind d j) * (psOf x (γ 0) j / (1 - psOf x (γ 0) j))) with hu
  have hd0 : ∀ c : κ → ℝ, dot (fun _ => (0:ℝ)) c = 0 := by intro c; unfold dot; simp
  simp only [hd0]
  have e3 : dot (alrPS d (psOf x (γ 0)) w x H i) (fun k => mean (fun j => u j * (dy j - wmean u dy) * x j k) / mean u)
      = dot (alrPS d (psOf x (γ 0)) w x H i) (fun k => mean (fun j => (u j * dy j - u j * wmean u dy) * x j k))
        / mean u := by
    unfold dot
    rw [Finset.sum_div]
    refine Finset.sum_congr rfl fun k _ => ?_
    rw [mul_div_assoc]
    have e4 : (fun j => u j * (dy j - wmean u dy) * x j k) = fun j => (u j * dy j - u j * wmean u dy) * x j k := by
      funext j; ring
    simp only [e4]
  rw [e3]
  ring

end Verif.DR
