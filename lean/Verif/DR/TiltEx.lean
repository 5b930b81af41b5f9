import Verif.DR.Tilt
import Mathlib.Tactic.NormNum
import Mathlib.Tactic.FinCases
import Mathlib.Analysis.Complex.ExponentialBounds

set_option linter.unusedSectionVars false
set_option linter.unusedSimpArgs false

/-!
# Calibrated propensity scores: concrete cases and the weighted fallback (C120)

Four observations: a treated and a comparison one with covariate 0, and a treated and a comparison one with covariate 1.
-/

namespace Verif.DR.Tilt

open Verif.DR

/-- Treatment indicator of the example. -/
def dE : Fin 4 → Bool := ![true, false, true, false]

/-- Constant and a binary covariate. -/
def xE : Fin 4 → Fin 2 → ℝ := ![![1, 0], ![1, 0], ![1, 1], ![1, 1]]

/-- Coefficients giving the odds `a` at covariate 0 and `b` at covariate 1. -/
noncomputable def γE (a b : ℝ) : Fin 2 → ℝ := ![Real.log a, Real.log b - Real.log a]

lemma fitted_E (a b : ℝ) : fitted xE (γE a b) = ![Real.log a, Real.log a, Real.log b, Real.log b] := by
  funext i
  fin_cases i <;> simp [fitted, xE, γE, Fin.sum_univ_two]

lemma abs_log_lt {a : ℝ} (h1 : 1 / 4 ≤ a) (h2 : a ≤ 4) : |Real.log a| < 500 := by
  have ha : 0 < a := by linarith
  have u := Real.log_le_sub_one_of_pos ha
  have l := Real.one_sub_inv_le_log_of_pos ha
  have : a⁻¹ ≤ 4 := by
    rw [inv_le_comm₀ ha (by norm_num)]; linarith
  rw [abs_lt]; constructor <;> linarith

lemma inRange_E {a b : ℝ} (ha : 1 / 4 ≤ a) (ha' : a ≤ 4) (hb : 1 / 4 ≤ b) (hb' : b ≤ 4) : InRange xE (γE a b) := by
  intro i
  rw [fitted_E]
  fin_cases i <;> simp
  · exact abs_log_lt ha ha'
  · exact abs_log_lt ha ha'
  · exact abs_log_lt hb hb'
  · exact abs_log_lt hb hb'

lemma odds_E {a b : ℝ} (ha : 0 < a) (hb : 0 < b) :
    (fun i => psOf xE (γE a b) i / (1 - psOf xE (γE a b) i)) = ![a, a, b, b] := by
  funext i
  rw [odds_psOf, fitted_E]
  fin_cases i <;> simp [Real.exp_log ha, Real.exp_log hb]

lemma odds_E' {a b : ℝ} (ha : 0 < a) (hb : 0 < b) (i : Fin 4) :
    psOf xE (γE a b) i / (1 - psOf xE (γE a b) i) = (![a, a, b, b] : Fin 4 → ℝ) i :=
  congrFun (odds_E ha hb) i

/-- Balance in the example: odds are ratios of treated to comparison weight in each cell. -/
lemma balances_E {a b : ℝ} (ha : 0 < a) (hb : 0 < b) (w : Fin 4 → ℝ) :
    Balances w dE xE (psOf xE (γE a b)) ↔ w 0 + w 2 = w 1 * a + w 3 * b ∧ w 2 = w 3 * b := by
  unfold Balances
  simp only [odds_E' ha hb, Finset.sum_filter, Fin.sum_univ_four, Fin.forall_fin_two]
  simp [dE, xE]

lemma size_four : Size ((Fintype.card (Fin 4) : ℕ) : ℝ) := by
  refine ⟨by norm_num, ?_⟩
  unfold vStar
  exact abs_log_lt (by norm_num) (by norm_num)

lemma interior_E {a b : ℝ} (ha : 0 < a) (hb : 0 < b) (ha' : a < 3) (hb' : b < 3) : Interior dE xE (γE a b) := by
  intro i hi
  rw [fitted_E]
  unfold vStar
  have e : ((Fintype.card (Fin 4) : ℕ) : ℝ) - 1 = 3 := by norm_num
  rw [e]
  fin_cases i
  · simp [dE] at hi
  · exact Real.log_lt_log ha ha'
  · simp [dE] at hi
  · exact Real.log_lt_log hb hb'

/-- Gradient of the fallback in the example. -/
lemma iptGrad_E {a b : ℝ} (ha : 0 < a) (hb : 0 < b) (ha' : 1 / 4 ≤ a) (hb' : 1 / 4 ≤ b) (ha3 : a < 3) (hb3 : b < 3)
    (w : Fin 4 → ℝ) : (∀ k, iptGrad dE xE w (γE a b) k = 0) ↔
      4 = w 1 * (1 + a) + w 3 * (1 + b) ∧ 2 = w 3 * (1 + b) := by
  have hr : InRange xE (γE a b) := inRange_E ha' (by linarith) hb' (by linarith)
  have hi := interior_E ha hb ha3 hb3
  simp only [iptGrad_zero_iff dE xE w (γE a b) hr hi]
  simp only [odds_E' ha hb, Finset.sum_filter, Fin.sum_univ_four, Fin.forall_fin_two]
  simp [dE, xE]
  norm_num

/-- The hypotheses of C118–C119 hold: the calibrated odds are the cell ratios 2 and 1. -/
example : InRange xE (γE 2 1) ∧ (∀ k, calGrad dE xE ![2, 1, 1, 1] (γE 2 1) k = 0) ∧
    FullRank (![2, 1, 1, 1] : Fin 4 → ℝ) (fun i => !dE i) xE := by
  have hr : InRange xE (γE 2 1) := inRange_E (by norm_num) (by norm_num) (by norm_num) (by norm_num)
  refine ⟨hr, (C118_balance _ _ _ _ hr).2 ((balances_E (by norm_num) (by norm_num) _).2 ?_), ?_⟩
  · simp
  · intro v hv
    have h0 := hv 0
    have h1 := hv 1
    simp [Finset.sum_filter, Fin.sum_univ_four, Fin.sum_univ_two, dE, xE] at h0 h1
    funext k
    fin_cases k <;> simp <;> linarith

/-- The hypotheses of C120 hold with unit weights. -/
example : Size ((Fintype.card (Fin 4) : ℕ) : ℝ) ∧ InRange xE (γE 1 1) ∧ Interior dE xE (γE 1 1) ∧
    ∀ k, iptGrad dE xE (fun _ => 1) (γE 1 1) k = 0 := by
  refine ⟨size_four, inRange_E (by norm_num) (by norm_num) (by norm_num) (by norm_num),
    interior_E (by norm_num) (by norm_num) (by norm_num) (by norm_num), ?_⟩
  rw [iptGrad_E (by norm_num) (by norm_num) (by norm_num) (by norm_num) (by norm_num) (by norm_num)]
  norm_num

/-- **C120 (violated)**: with sampling weights (here averaging one) the minimiser of the fallback does not balance the
sample: the treated covariate mean is 2/3, the reweighted comparison mean 1/3, although balancing coefficients exist. -/
theorem C120_weights_violated :
    ∃ (w : Fin 4 → ℝ) (γ : Fin 2 → ℝ), (∀ i, 0 < w i) ∧ mean w = 1 ∧ InRange xE γ ∧ Interior dE xE γ ∧
      (∀ k, iptGrad dE xE w γ k = 0) ∧
      (∑ i with dE i = true, w i * xE i 1) / (∑ i with dE i = true, w i) = 2 / 3 ∧
      (∑ i with dE i = false, w i * (psOf xE γ i / (1 - psOf xE γ i)) * xE i 1) /
        (∑ i with dE i = false, w i * (psOf xE γ i / (1 - psOf xE γ i))) = 1 / 3 ∧
      ∃ γ', InRange xE γ' ∧ Interior dE xE γ' ∧ Balances w dE xE (psOf xE γ') := by
  refine ⟨![2/3, 2/3, 4/3, 4/3], γE 2 (1/2), ?_, ?_, inRange_E (by norm_num) (by norm_num) (by norm_num) (by norm_num),
    interior_E (by norm_num) (by norm_num) (by norm_num) (by norm_num), ?_, ?_, ?_, γE 1 1,
    inRange_E (by norm_num) (by norm_num) (by norm_num) (by norm_num),
    interior_E (by norm_num) (by norm_num) (by norm_num) (by norm_num), ?_⟩
  · intro i; fin_cases i <;> norm_num
  · unfold mean; simp [Fin.sum_univ_four]; norm_num
  · rw [iptGrad_E (by norm_num) (by norm_num) (by norm_num) (by norm_num) (by norm_num) (by norm_num)]
    simp; norm_num
  · simp only [Finset.sum_filter, Fin.sum_univ_four]
    simp [dE, xE]; norm_num
  · simp only [odds_E' (show (0:ℝ) < 2 by norm_num) (show (0:ℝ) < 1/2 by norm_num), Finset.sum_filter, Fin.sum_univ_four]
    simp [dE, xE]; norm_num
  · rw [balances_E (by norm_num) (by norm_num)]
    simp

/-- **C120 (violated)**: multiplying every weight by 4/5 changes the fallback's scores (odds 1 become odds 3/2),
although balance does not depend on the scale of the weights. -/
theorem C120_scale_violated :
    ∃ (w : Fin 4 → ℝ) (γ γ' : Fin 2 → ℝ) (c : ℝ), 0 < c ∧ (∀ i, 0 < w i) ∧ Interior dE xE γ ∧ Interior dE xE γ' ∧
      InRange xE γ ∧ InRange xE γ' ∧
      (∀ k, iptGrad dE xE w γ k = 0) ∧ (∀ k, iptGrad dE xE (fun i => c * w i) γ' k = 0) ∧
      (∀ ps, Balances w dE xE ps ↔ Balances (fun i => c * w i) dE xE ps) ∧
      ∀ i, psOf xE γ i ≠ psOf xE γ' i := by
  refine ⟨fun _ => 1, γE 1 1, γE (3/2) (3/2), 4/5, by norm_num, fun _ => by norm_num,
    interior_E (by norm_num) (by norm_num) (by norm_num) (by norm_num),
    interior_E (by norm_num) (by norm_num) (by norm_num) (by norm_num),
    inRange_E (by norm_num) (by norm_num) (by norm_num) (by norm_num),
    inRange_E (by norm_num) (by norm_num) (by norm_num) (by norm_num), ?_, ?_, ?_, ?_⟩
  · rw [iptGrad_E (by norm_num) (by norm_num) (by norm_num) (by norm_num) (by norm_num) (by norm_num)]
    norm_num
  · rw [iptGrad_E (by norm_num) (by norm_num) (by norm_num) (by norm_num) (by norm_num) (by norm_num)]
    norm_num
  · intro ps
    unfold Balances
    refine forall_congr' fun k => ?_
    simp only [mul_assoc, ← Finset.mul_sum]
    exact (mul_right_inj' (by norm_num : (4/5:ℝ) ≠ 0)).symm
  · intro i he
    have a := odds_E' (show (0:ℝ) < 1 by norm_num) (show (0:ℝ) < 1 by norm_num) i
    have b := odds_E' (show (0:ℝ) < 3/2 by norm_num) (show (0:ℝ) < 3/2 by norm_num) i
    rw [he, b] at a
    fin_cases i <;> norm_num at a

end Verif.DR.Tilt
