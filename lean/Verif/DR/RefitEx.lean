import Verif.DR.Refit
import Mathlib.Tactic.NormNum
import Mathlib.Algebra.Order.Field.Rat

/-!
# Weighted bootstrap: concrete samples and violations

A straight-line regression solved in closed form is used as the least-squares routine; scores satisfy the first-order
conditions of the routine that is supposed to have produced them.
-/

set_option linter.unusedSectionVars false
set_option linter.unusedSimpArgs false

namespace Verif.DR

/-- Weighted least squares of `y` on (1, z) among `sel`, in closed form; `z` is the second regressor. -/
def lineFit {n : ℕ} : OLS (Fin n) (Fin 2) ℚ := fun w sel x y =>
  let s0 := ∑ i with sel i = true, w i
  let s1 := ∑ i with sel i = true, w i * x i 1
  let s2 := ∑ i with sel i = true, w i * x i 1 * x i 1
  let t0 := ∑ i with sel i = true, w i * y i
  let t1 := ∑ i with sel i = true, w i * x i 1 * y i
  let D := s0 * s2 - s1 * s1
  ![(s2 * t0 - s1 * t1) / D, (s0 * t1 - s1 * t0) / D]

lemma lineFit_scaleFree {n : ℕ} : (lineFit (n := n)).ScaleFree := by
  intro c hc w sel x y
  have h0 : ∑ i with sel i = true, c * w i = c * ∑ i with sel i = true, w i := by rw [Finset.mul_sum]
  have h1 : ∑ i with sel i = true, c * w i * x i 1 = c * ∑ i with sel i = true, w i * x i 1 := by
    rw [Finset.mul_sum]; exact Finset.sum_congr rfl fun i _ => by ring
  have h2 : ∑ i with sel i = true, c * w i * x i 1 * x i 1 = c * ∑ i with sel i = true, w i * x i 1 * x i 1 := by
    rw [Finset.mul_sum]; exact Finset.sum_congr rfl fun i _ => by ring
  have h3 : ∑ i with sel i = true, c * w i * y i = c * ∑ i with sel i = true, w i * y i := by
    rw [Finset.mul_sum]; exact Finset.sum_congr rfl fun i _ => by ring
  have h4 : ∑ i with sel i = true, c * w i * x i 1 * y i = c * ∑ i with sel i = true, w i * x i 1 * y i := by
    rw [Finset.mul_sum]; exact Finset.sum_congr rfl fun i _ => by ring
  unfold lineFit
  simp only [h0, h1, h2, h3, h4]
  have hcc : c * c ≠ 0 := mul_ne_zero hc.ne' hc.ne'
  have q : ∀ a b e f : ℚ, ((c * a) * (c * b) - (c * e) * (c * f)) = (c * c) * (a * b - e * f) := by intros; ring
  simp only [q, mul_div_mul_left _ _ hcc]

/-- The moment conditions tilted scores satisfy: treated and odds-weighted comparison totals of every regressor agree
(`pscore_ipt.py:206-209`). -/
def TiltEq {ι κ : Type*} [Fintype ι] (w : ι → ℚ) (d : ι → Bool) (x : ι → κ → ℚ) (ps : ι → ℚ) : Prop :=
  ∀ k, ∑ i, w i * (if d i then 1 else -(ps i / (1 - ps i))) * x i k = 0

/-! ## A panel of six units: covariate 0, 1, 2 in each arm -/

def rfD : Fin 6 → Bool := ![true, true, true, false, false, false]
def rfX : Fin 6 → Fin 2 → ℚ := fun i => ![1, ![0, 1, 2, 0, 1, 2] i]
def rfY1 : Fin 6 → ℚ := ![0, 3, 1, 0, 0, 1]
def rfY0 : Fin 6 → ℚ := ![0, 0, 0, 0, 0, 0]
/-- Weights for which the logit scores below satisfy the likelihood equations. -/
def rfW : Fin 6 → ℚ := ![3, 2, 9, 1, 4, 1]
/-- Weights for which the scores below satisfy the tilting equations. -/
def rfW' : Fin 6 → ℚ := ![1, 2, 4, 1, 1, 1]
def rfPs : Fin 6 → ℚ := ![1/2, 2/3, 4/5, 1/2, 2/3, 4/5]
def rfLogit : Logit (Fin 6) (Fin 2) ℚ := fun _ _ _ => rfPs
def rfV : Fin 6 → ℚ := ![1, 2, 1/2, 3, 1, 1/3]

lemma rfLogit_scaleFree : rfLogit.ScaleFree := fun _ _ _ _ _ => rfl

lemma rfGood : GoodW rfW := ⟨by decide +kernel, ⟨0, by decide +kernel⟩⟩
lemma rfGood' : GoodW rfW' := ⟨by decide +kernel, ⟨0, by decide +kernel⟩⟩
lemma rfVpos : ∀ i, 0 < rfV i := by decide +kernel

/-- The hypotheses of the C110 panel theorems hold here, and the common value is a number. -/
example : wbootStdIpwPanel rfLogit (1/1000000) (999999/1000000) (995/1000) (fun i => rfY1 i - rfY0 i) rfD rfX
      (normalize rfW) rfV = some (1129/851) ∧
    wbootIpwPanel rfLogit (1/1000000) (999999/1000000) (995/1000) (fun i => rfY1 i - rfY0 i) rfD rfX
      (normalize rfW) rfV = some (91/69) ∧
    wbootRegPanel lineFit (fun i => rfY1 i - rfY0 i) rfD rfX (normalize rfW) rfV ≠ none := by
  decide +kernel

example := C110_std_ipw_panel rfLogit rfLogit_scaleFree (1/1000000) (999999/1000000) (995/1000) rfY1 rfY0 rfD rfX rfW rfV
  rfGood rfVpos ⟨0, rfl⟩ ⟨3, rfl⟩

example := C110_ipw_panel rfLogit rfLogit_scaleFree (1/1000000) (999999/1000000) (995/1000) rfY1 rfY0 rfD rfX rfW rfV
  rfGood rfVpos ⟨0, rfl⟩ ⟨3, rfl⟩

example := C110_reg_panel lineFit lineFit_scaleFree rfY1 rfY0 rfD rfX rfW rfV
  rfGood rfVpos ⟨0, rfl, by decide +kernel⟩ ⟨3, rfl⟩ (by decide +kernel)

/-- **C112 (violated, panel).** On this sample the scores solve the logit likelihood equations and both regressions solve
their normal equations, yet a replication in which every draw equals one is not the estimate: the replication weights the
outcome regression by the odds of treatment, the estimator does not.  Its value is the doubly robust formula evaluated
with the wrong regression. -/
theorem C112_dr_panel_violated :
    ScoreEq (normalize rfW) rfD rfX rfPs ∧
    (∀ k, ∑ i with notB rfD i = true, normalize rfW i *
      ((rfY1 i - rfY0 i) - fitted rfX (lineFit (normalize rfW) (notB rfD) rfX (fun i => rfY1 i - rfY0 i)) i) *
      rfX i k = 0) ∧
    drdidPanel lineFit rfLogit (1/1000000) (999999/1000000) (995/1000) rfY1 rfY0 rfD rfX rfW = .ok (121/182) ∧
    wbootDrPanel lineFit rfLogit (1/1000000) (999999/1000000) (995/1000) (fun i => rfY1 i - rfY0 i) rfD rfX
      (normalize rfW) (fun _ => 1) = some (61/98) := by
  refine ⟨?_, ?_, ?_, ?_⟩
  · unfold ScoreEq; decide +kernel
  · decide +kernel
  · decide +kernel
  · decide +kernel

/-- **C111 (violated with trimming, panel).** With one comparison unit above the trimming level a unit-draw replication of
the improved estimator is not the estimate: the estimator divides the comparison term by the treated total, the
replication by the comparison total that is left. -/
theorem C111_trimmed_violated :
    TiltEq (normalize rfW') rfD rfX rfPs ∧
    drdidImpPanel lineFit rfLogit (1/1000000) (999999/1000000) (3/4) rfY1 rfY0 rfD rfX rfW' = .ok (82/91) ∧
    wbootImpPanel lineFit rfLogit (1/1000000) (999999/1000000) (3/4) (fun i => rfY1 i - rfY0 i) rfD rfX
      (normalize rfW') (fun _ => 1) = some (262/273) := by
  refine ⟨?_, ?_, ?_⟩
  · unfold TiltEq; decide +kernel
  · decide +kernel
  · decide +kernel

/-- The hypotheses of `C111_imp_panel` hold here: the closed-form line solves its normal equations for positive weights,
and the replication is a number. -/
example : (wbootImpPanel lineFit rfLogit (1/1000000) (999999/1000000) (995/1000) (fun i => rfY1 i - rfY0 i) rfD rfX
      (normalize rfW') rfV).isSome ∧
    (∀ i, rfD i = false → clip (1/1000000) (999999/1000000) (rfLogit (drawW (normalize rfW') rfV) rfD rfX) i
      < 995/1000) ∧ (∀ i, rfX i 0 = 1) := by decide +kernel

/-! ## Repeated cross-sections: the same six units observed before (0-5) and after (6-11) -/

def rcD : Fin 12 → Bool := ![true, true, true, false, false, false, true, true, true, false, false, false]
def rcP : Fin 12 → Bool := ![false, false, false, false, false, false, true, true, true, true, true, true]
def rcX : Fin 12 → Fin 2 → ℚ := fun i => ![1, ![0, 1, 2, 0, 1, 2, 0, 1, 2, 0, 1, 2] i]
def rcY : Fin 12 → ℚ := ![1, 0, 0, 0, 1, 0, 0, 3, 1, 0, 0, 1]
def rcW : Fin 12 → ℚ := ![2, 3, 8, 1, 4, 1, 4, 1, 10, 1, 4, 1]
def rcW' : Fin 12 → ℚ := ![1/2, 3, 4, 1, 1, 1, 3/2, 1, 4, 1, 1, 1]
def rcPs : Fin 12 → ℚ := ![1/2, 2/3, 4/5, 1/2, 2/3, 4/5, 1/2, 2/3, 4/5, 1/2, 2/3, 4/5]
def rcLogit : Logit (Fin 12) (Fin 2) ℚ := fun _ _ _ => rcPs
def rcV : Fin 12 → ℚ := ![1, 2, 1/2, 3, 1, 1/3, 1, 1, 2, 1/2, 1, 1]

lemma rcLogit_scaleFree : rcLogit.ScaleFree := fun _ _ _ _ _ => rfl
lemma rcGood : GoodW rcW := ⟨by decide +kernel, ⟨0, by decide +kernel⟩⟩
lemma rcGood' : GoodW rcW' := ⟨by decide +kernel, ⟨0, by decide +kernel⟩⟩
lemma rcVpos : ∀ i, 0 < rcV i := by decide +kernel

/-- The replications of the C110 repeated cross-section theorems are numbers here. -/
example : (wbootStdIpwRC rcLogit (1/1000000) (999999/1000000) (995/1000) rcY rcP rcD rcX (normalize rcW) rcV).isSome ∧
    (wbootRegRC lineFit rcY rcP rcD rcX (normalize rcW) rcV).isSome ∧ rcChecks rcD rcP rcW = true := by
  decide +kernel

/-- The replications of the C111 repeated cross-section theorems are numbers here, and nothing is trimmed. -/
example : (wbootIptRC1 lineFit rcLogit (1/1000000) (999999/1000000) (995/1000) rcY rcP rcD rcX (normalize rcW') rcV).isSome ∧
    (wbootIptRC2 lineFit rcLogit (1/1000000) (999999/1000000) (995/1000) rcY rcP rcD rcX (normalize rcW') rcV).isSome ∧
    rcChecks rcD rcP rcW' = true ∧
    (∀ i, rcD i = false → clip (1/1000000) (999999/1000000) (rcLogit (drawW (normalize rcW') rcV) rcD rcX) i
      < 995/1000) := by
  decide +kernel

/-- **C112 (violated, repeated cross-sections).** The same for `drdid_trad_rc` and `drdid_rc`: unit draws do not reproduce
the estimates. -/
theorem C112_dr_rc_violated :
    ScoreEq (normalize rcW) rcD rcX rcPs ∧
    drdidTradRC lineFit rcLogit (1/1000000) (999999/1000000) (995/1000) rcY rcP rcD rcX rcW = some (73/78) ∧
    wbootRC1 lineFit rcLogit (1/1000000) (999999/1000000) (995/1000) rcY rcP rcD rcX (normalize rcW) (fun _ => 1) =
      some (1093/1365) ∧
    drdidRC lineFit rcLogit (1/1000000) (999999/1000000) (995/1000) rcY rcP rcD rcX rcW = some (342371/372099) ∧
    wbootRC2 lineFit rcLogit (1/1000000) (999999/1000000) (995/1000) rcY rcP rcD rcX (normalize rcW) (fun _ => 1) =
      some (158876/200361) := by
  refine ⟨?_, ?_, ?_, ?_, ?_⟩
  · unfold ScoreEq; decide +kernel
  all_goals decide +kernel

/-- **C111 (violated with trimming, repeated cross-sections).** Once a comparison observation is trimmed, unit-draw
replications of `drdid_imp_rc` and `drdid_imp_local_rc` are not the estimates: the replication drops trimmed observations
from the outcome regressions, the estimators keep them. -/
theorem C111_trimmed_rc_violated :
    TiltEq (normalize rcW') rcD rcX rcPs ∧
    drdidImpRC lineFit rcLogit (1/1000000) (999999/1000000) (3/4) rcY rcP rcD rcX rcW' = some (2663/2535) ∧
    wbootIptRC1 lineFit rcLogit (1/1000000) (999999/1000000) (3/4) rcY rcP rcD rcX (normalize rcW') (fun _ => 1) =
      some (161/65) ∧
    drdidImpLocalRC lineFit rcLogit (1/1000000) (999999/1000000) (3/4) rcY rcP rcD rcX rcW' = some (238983/230867) ∧
    wbootIptRC2 lineFit rcLogit (1/1000000) (999999/1000000) (3/4) rcY rcP rcD rcX (normalize rcW') (fun _ => 1) =
      some (43363/17759) := by
  refine ⟨?_, ?_, ?_, ?_, ?_⟩
  · unfold TiltEq; decide +kernel
  all_goals decide +kernel

/-- **C113 (violated).** Horvitz-Thompson IPW for repeated cross-sections: the draws are never renormalised, so halving
every draw changes the replication although the estimator itself does not change when all weights are halved; doubling
every draw even reverses its sign. -/
theorem C113_ipw_rc_violated :
    ipwDidRC rcLogit (1/1000000) (999999/1000000) (995/1000) rcY rcP rcD rcX rcW = some (990/931) ∧
    ipwDidRC rcLogit (1/1000000) (999999/1000000) (995/1000) rcY rcP rcD rcX (fun i => rcW i * (1/2)) = some (990/931) ∧
    wbootIpwRC rcLogit (1/1000000) (999999/1000000) (995/1000) rcY rcP rcD rcX (normalize rcW) (fun _ => 1) = some (990/931) ∧
    wbootIpwRC rcLogit (1/1000000) (999999/1000000) (995/1000) rcY rcP rcD rcX (normalize rcW) (fun _ => 1/2) = some (4380/2891) ∧
    wbootIpwRC rcLogit (1/1000000) (999999/1000000) (995/1000) rcY rcP rcD rcX (normalize rcW) (fun _ => 2) =
      some (-195/49) := by
  refine ⟨?_, ?_, ?_, ?_, ?_⟩
  all_goals decide +kernel

/-- The hypotheses of `C113_ipw_rc` hold for draws that are not all one. -/
example : mean (drawW (normalize rcW) ![1, 2, 1, 1, 1/4, 1, 1, 1, 1, 1, 1, 1]) = 1 ∧
    (∀ i, (0:ℚ) < (![1, 2, 1, 1, 1/4, 1, 1, 1, 1, 1, 1, 1] : Fin 12 → ℚ) i) := by decide +kernel

end Verif.DR
