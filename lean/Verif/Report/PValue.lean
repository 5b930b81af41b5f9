import Verif.Report.Props
import Verif.Report.Normal

set_option linter.unusedSectionVars false
set_option linter.unusedSimpArgs false

/-!
# Printed p-values and stars of two-period results; intervals of 1.96 standard errors (C247, C248)
-/

namespace Verif.Report

open Verif.Honest MeasureTheory ProbabilityTheory

/-! ## Model -/

/-- The printed p-value: `2 * (1 - norm.cdf(abs(att / se)))`, NaN unless the standard error is positive, `drdid/format.py:34-35`,
`didtriple/format.py:94-95,226-227`; a standard error that is NaN is `none`. -/
noncomputable def pValue (att : ℝ) (se : Option ℝ) : Option ℝ :=
  match se with
  | some s => if 0 < s then some (2 * (1 - Phi |att / s|)) else none
  | none => none

/-- Analytical interval of the two-period estimators, e.g. `drdid/estimators/drdid_imp_panel.py:146-147` (in all of `drdid/estimators`). -/
noncomputable def didInterval (att s : ℝ) : ℝ × ℝ := rowInterval (196 / 100) att s

/-- Analytical interval of `ddd`, `didtriple/estimators/ddd_panel.py:229-234`, `ddd_rc.py:225-230`. -/
noncomputable def dddInterval (alpha att s : ℝ) : ℝ × ℝ := rowInterval (zcrit alpha) att s

/-- Bootstrap interval of both: with a standard error that is not positive (or NaN) both ends are the estimate,
`drdid_imp_panel.py:154-172`, `ddd_panel.py:241-265`. -/
noncomputable def bootInterval (cv att : ℝ) (se : Option ℝ) : ℝ × ℝ :=
  match se with
  | some s => if 0 < s then rowInterval cv att s else (att, att)
  | none => (att, att)

/-- The printed star, `core/format.py:63-67`. -/
noncomputable def starOf (i : ℝ × ℝ) : Bool := star (some i.1) (some i.2)

/-! ## C247 -/

theorem star_iff (c att s : ℝ) (hs : 0 < s) : starOf (rowInterval c att s) = true ↔ c < |att / s| := by
  unfold starOf star rowInterval
  rw [Bool.or_eq_true, decide_eq_true_eq, decide_eq_true_eq, lt_abs, lt_div_iff₀ hs, ← neg_div, lt_div_iff₀ hs]
  constructor
  · rintro (h | h)
    · right; linarith
    · left; linarith
  · rintro (h | h)
    · right; linarith
    · left; linarith

theorem pValue_lt (att s a : ℝ) (hs : 0 < s) (h0 : 0 < a) (h1 : a < 1) :
    ∃ p, pValue att (some s) = some p ∧ (p < a ↔ zcrit a < |att / s|) := by
  refine ⟨_, if_pos hs, ?_⟩
  unfold zcrit
  rw [ppf_lt _ _ (by linarith) (by linarith)]
  constructor <;> intro h <;> linarith

/-- **C247.**  `ddd` with analytical standard errors: for every estimate, positive standard error and level `alpha`, the estimate is marked `*`
exactly if the printed p-value is below `alpha`. -/
theorem C247_ddd (alpha att s : ℝ) (hs : 0 < s) (h0 : 0 < alpha) (h1 : alpha < 1) :
    ∃ p, pValue att (some s) = some p ∧ (starOf (dddInterval alpha att s) = true ↔ p < alpha) := by
  obtain ⟨p, hp, h⟩ := pValue_lt att s alpha hs h0 h1
  exact ⟨p, hp, by rw [h]; exact star_iff _ _ _ hs⟩

example : ∃ p, pValue 3 (some 1) = some p ∧ (starOf (dddInterval (1 / 10) 3 1) = true ↔ p < 1 / 10) :=
  C247_ddd (1 / 10) 3 1 (by norm_num) (by norm_num) (by norm_num)

/-- **C247.**  Two-period estimators with analytical standard errors: a starred estimate has a p-value below 0.05, and one with a p-value
below 0.04998 is starred. -/
theorem C247_did (att s : ℝ) (hs : 0 < s) :
    ∃ p, pValue att (some s) = some p ∧ (starOf (didInterval att s) = true → p < 5 / 100) ∧
      (p < 4998 / 100000 → starOf (didInterval att s) = true) := by
  refine ⟨_, if_pos hs, ?_, ?_⟩
  · intro h
    have h2 := phi_strictMono ((star_iff _ _ _ hs).1 h)
    have := phi_196_lower
    linarith
  · intro h
    refine (star_iff _ _ _ hs).2 ?_
    by_contra hc
    have h2 := phi_mono (not_lt.1 hc)
    have := phi_196_upper
    linarith

example : ∃ p, pValue 3 (some 1) = some p ∧ (starOf (didInterval 3 1) = true → p < 5 / 100) ∧
    (p < 4998 / 100000 → starOf (didInterval 3 1) = true) := C247_did 3 1 (by norm_num)

/-- **C247 (violated).**  An estimate of exactly 1.96 standard errors has a p-value below 0.05 and no star. -/
theorem C247_boundary_violated (s : ℝ) (hs : 0 < s) :
    ∃ p, pValue (196 / 100 * s) (some s) = some p ∧ p < 5 / 100 ∧ starOf (didInterval (196 / 100 * s) s) = false := by
  have ht : |196 / 100 * s / s| = 196 / 100 := by rw [mul_div_cancel_right₀ _ hs.ne']; norm_num
  refine ⟨_, if_pos hs, ?_, ?_⟩
  · rw [ht]
    have := phi_196_lower
    linarith
  · rw [← Bool.not_eq_true, didInterval, star_iff _ _ _ hs, ht]
    exact lt_irrefl _

example : starOf (didInterval (196 / 100 * 2) 2) = false := by
  obtain ⟨_, _, _, h⟩ := C247_boundary_violated 2 (by norm_num)
  exact h

/-- **C247 (violated).**  With bootstrap standard errors the star follows the bootstrap critical value and the p-value the normal distribution:
whenever the two critical values differ there are estimates whose star and p-value contradict each other, in the one or the other
direction. -/
theorem C247_bootstrap_violated (alpha cv s : ℝ) (hs : 0 < s) (h0 : 0 < alpha) (h1 : alpha < 1) (hc : 0 ≤ cv) (hz : 0 ≤ zcrit alpha) :
    (zcrit alpha < cv → ∃ att p, pValue att (some s) = some p ∧ p < alpha ∧ starOf (bootInterval cv att (some s)) = false) ∧
    (cv < zcrit alpha → ∃ att p, pValue att (some s) = some p ∧ alpha ≤ p ∧ starOf (bootInterval cv att (some s)) = true) := by
  have hb : ∀ att, bootInterval cv att (some s) = rowInterval cv att s := fun att => if_pos hs
  constructor
  · intro h
    have ht : |cv * s / s| = cv := by rw [mul_div_cancel_right₀ _ hs.ne', abs_of_nonneg hc]
    obtain ⟨p, hp, hi⟩ := pValue_lt (cv * s) s alpha hs h0 h1
    refine ⟨cv * s, p, hp, hi.2 (by rw [ht]; exact h), ?_⟩
    rw [hb, ← Bool.not_eq_true, star_iff _ _ _ hs, ht]
    exact lt_irrefl _
  · intro h
    have ht : |zcrit alpha * s / s| = zcrit alpha := by rw [mul_div_cancel_right₀ _ hs.ne', abs_of_nonneg hz]
    obtain ⟨p, hp, hi⟩ := pValue_lt (zcrit alpha * s) s alpha hs h0 h1
    refine ⟨zcrit alpha * s, p, hp, ?_, ?_⟩
    · by_contra hlt
      have := hi.1 (not_le.1 hlt)
      rw [ht] at this
      exact lt_irrefl _ this
    · rw [hb, star_iff _ _ _ hs, ht]
      exact h

/-- The normal critical value of every level below one is positive: a bootstrap critical value of zero contradicts it. -/
theorem zcrit_pos (a : ℝ) (h0 : 0 < a) (h1 : a < 1) : 0 < zcrit a := by
  unfold zcrit
  rw [lt_ppf _ _ (by linarith) (by linarith), phi_zero]
  linarith

theorem zcrit_5 : zcrit (5 / 100) < 196 / 100 := by
  unfold zcrit
  rw [ppf_lt _ _ (by norm_num) (by norm_num)]
  have := phi_196_lower
  linarith

/-- A bootstrap critical value of `2.5` at level 0.05. -/
example : ∃ att p, pValue att (some 1) = some p ∧ p < 5 / 100 ∧ starOf (bootInterval (5 / 2) att (some 1)) = false :=
  (C247_bootstrap_violated (5 / 100) (5 / 2) 1 (by norm_num) (by norm_num) (by norm_num) (by norm_num)
    (zcrit_pos _ (by norm_num) (by norm_num)).le).1 (by have := zcrit_5; linarith)

/-- **C247 (violated).**  If the bootstrap gives no usable standard error (zero, negative or NaN), every estimate other than zero is starred,
and no p-value is printed. -/
theorem C247_no_se_violated (cv att : ℝ) (se : Option ℝ) (hse : ∀ s, se = some s → s ≤ 0) (ha : att ≠ 0) :
    starOf (bootInterval cv att se) = true ∧ pValue att se = none := by
  have hb : bootInterval cv att se = (att, att) ∧ pValue att se = none := by
    cases se with
    | none => exact ⟨rfl, rfl⟩
    | some s => exact ⟨if_neg (not_lt.2 (hse s rfl)), if_neg (not_lt.2 (hse s rfl))⟩
  refine ⟨?_, hb.2⟩
  rw [hb.1]
  unfold starOf star
  rw [Bool.or_eq_true, decide_eq_true_eq, decide_eq_true_eq]
  exact lt_or_gt_of_ne ha

example : starOf (bootInterval 2 (1 / 1000) none) = true := (C247_no_se_violated 2 (1 / 1000) none (by simp) (by norm_num)).1

/-! ## C248 -/

/-- **C248.**  If the estimate is normal with the reported standard error as standard deviation, the interval of 1.96 standard errors contains
the effect with probability above 0.95 and below 0.95002. -/
theorem C248_coverage (θ s : ℝ) (hs : 0 < s) :
    95 / 100 < coverage θ s (fun x => didInterval x s) ∧ coverage θ s (fun x => didInterval x s) < 95002 / 100000 := by
  have h := coverage_row θ s (196 / 100)
  have h2 : absNormal 0 s (196 / 100 * s) = 2 * Phi (196 / 100) - 1 := by
    rw [absNormal_eq 0 s _ hs (by positivity)]
    unfold foldedCdf
    rw [sub_zero, sub_zero, sub_zero, mul_div_cancel_right₀ _ hs.ne', neg_div, mul_div_cancel_right₀ _ hs.ne', phi_neg]
    ring
  unfold didInterval
  rw [h, h2]
  have h3 := phi_196_lower
  have h4 := phi_196_upper
  constructor <;> linarith

example : 95 / 100 < coverage 7 3 (fun x => didInterval x 3) := (C248_coverage 7 3 (by norm_num)).1

end Verif.Report
