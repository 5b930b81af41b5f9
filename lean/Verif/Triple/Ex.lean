import Verif.Triple.Influence
import Mathlib.Data.Fin.VecNotation
import Mathlib.Algebra.BigOperators.Fin
import Mathlib.Algebra.Order.Ring.Rat
import Mathlib.Tactic.NormNum

/-!
# Triple differences, panel: concrete instances meeting the hypotheses of C49 and C50
-/

set_option linter.unusedSectionVars false
set_option linter.unusedSimpArgs false

namespace Verif.Triple

open Verif.DR (mean ind fitted dot notB NormalEq ScoreEq BothArms treatedShare did2x2 wavg)

variable {ι K : Type*} [Fintype ι] [Field K] [LinearOrder K] [IsStrictOrderedRing K]

/-- Closed-form intercept-only fits: weighted mean, weighted share, reciprocal. -/
def meanFits (sg : ι → ℕ) : Fits sg Unit K where
  ols := fun _ w sel _ y _ => (∑ i with sel i = true, w i * y i) / ∑ i with sel i = true, w i
  logit := fun _ w d _ _ => treatedShare w d
  hess := fun _ ps _ _ => (mean fun i => ps i * (1 - ps i))⁻¹
  inv := fun M _ _ => (M () ())⁻¹

lemma meanFits_normal {σ : Type*} [Fintype σ] (w y : σ → K) (sel : σ → Bool) (x : σ → Unit → K) (hx : ∀ i, x i () = 1)
    (hw : ∑ i with sel i = true, w i ≠ 0) :
    NormalEq w sel x y (fun _ => (∑ i with sel i = true, w i * y i) / ∑ i with sel i = true, w i) := by
  intro k
  simp only [hx, Finset.univ_unique, PUnit.default_eq_unit, Finset.sum_singleton, one_mul, mul_one, mul_sub,
    Finset.sum_sub_distrib, ← Finset.sum_mul]
  rw [mul_div_cancel₀ _ hw, sub_self]

/-- Closed-form fits satisfy all conditions as soon as the four subgroups have positive weight. -/
lemma meanFits_intercept {sg : ι → ℕ} (w dy : ι → K) (x : ι → Unit → K) (hx : ∀ i, x i () = 1) (hw : ∀ i, 0 ≤ w i)
    (hpos : ∀ k ∈ [1, 2, 3, 4], 0 < ∑ i with sg i = k, w i) : InterceptFits (meanFits sg) w x dy := by
  have hb : ∀ c ∈ [1, 2, 3], BothArms (onSub sg c w) (pa4 sg c) := fun c hc =>
    bothArms (by rintro rfl; simp at hc) hw (hpos 4 (by simp)) (hpos c (by simp at hc ⊢; tauto))
  refine ⟨hx, fun c hc => ?_, fun c hc => ⟨_, rfl⟩, fun c hc k => ?_⟩
  · refine meanFits_normal (onSub sg c w) (onSub sg c dy) (notB (pa4 sg c)) (onSub sg c x) (fun i => hx i.1) ?_
    have e := DR.sum_notB (pa4 sg c) (onSub sg c w)
    rw [DR.sum_ind] at e
    rw [e]
    exact (hb c hc).control.ne'
  · have ht := (hb c hc).total.ne'
    unfold meanFits treatedShare
    simp only [onSub, hx, mul_one, mul_sub, Finset.sum_sub_distrib, ← Finset.sum_mul, mul_ite, mul_zero]
    have ht' : ∑ i : Sub sg c, w i.1 ≠ 0 := ht
    rw [mul_div_cancel₀ _ ht', ← Finset.sum_filter, sub_self]

def exSg : Fin 7 → ℕ := ![4, 4, 3, 3, 2, 1, 1]
def exW : Fin 7 → ℚ := ![1, 2, 1, 1, 3, 1, 1]
def exY1 : Fin 7 → ℚ := ![10, 14, 5, 6, 4, 2, 3]
def exY0 : Fin 7 → ℚ := ![1, 2, 1, 2, 2, 1, 1]

lemma exPos : ∀ k ∈ [1, 2, 3, 4], (0 : ℚ) < ∑ i with exSg i = k, exW i := by decide +kernel
lemma exPosN : ∀ k ∈ [1, 2, 3, 4], (0 : ℚ) < ∑ i with exSg i = k, DR.normalize exW i := by decide +kernel

lemma exFits : InterceptFits (meanFits exSg) (DR.normalize exW) (fun _ _ => 1) (fun i => exY1 i - exY0 i) :=
  meanFits_intercept _ _ _ (fun _ => rfl) (by decide +kernel) exPosN

/-- Changes 11, 4, 2, 3/2: the triple difference is 13/2, for all three methods. -/
theorem ex_no_covariates (m : Est) : (dddPanel (meanFits exSg) m (9/10) (99/100) exY1 exY0 (fun _ _ => 1) exW).map
    Prod.fst = .ok (13 / 2) := by
  rw [C49_no_covariates (meanFits exSg) m (9/10) (99/100) exY1 exY0 (fun _ _ => 1) exW exFits (by norm_num)
    (by norm_num) (by decide) (by decide +kernel) exPos (fun _ => by decide +kernel)]
  have : ddd exW exSg exY1 exY0 = 13 / 2 := by decide +kernel
  rw [this]

/-- So the combination and mean-zero theorems apply to an actual run. -/
lemma ex_runs (m : Est) : ∃ r, dddPanel (meanFits exSg) m (9/10) (99/100) exY1 exY0 (fun _ _ => (1 : ℚ)) exW = .ok r ∧
    r.1 = 13 / 2 := by
  have := ex_no_covariates m
  cases h : dddPanel (meanFits exSg) m (9/10) (99/100) exY1 exY0 (fun _ _ => (1 : ℚ)) exW with
  | error e => rw [h] at this; simp [Except.map] at this
  | ok r => rw [h] at this; simp only [Except.map, Except.ok.injEq] at this; exact ⟨r, rfl, this⟩

lemma exFirstOrder (m : Est) : FirstOrder m (meanFits exSg) (9/10) (DR.normalize exW) (fun _ _ => 1)
    fun i => exY1 i - exY0 i := by
  refine ⟨fun _ => exFits.ols, fun _ c hc => ?_⟩
  have hs := exFits.score c hc
  have : score (meanFits exSg) (9/10) c (DR.normalize exW) (fun _ _ => 1) =
      (meanFits exSg).logit c (onSub exSg c (DR.normalize exW)) (pa4 exSg c) (onSub exSg c fun _ _ => 1) := by
    funext i
    unfold score
    apply min_eq_left
    have hc4 : c ≠ 4 := by rintro rfl; simp at hc
    have e : (meanFits exSg).logit c (onSub exSg c (DR.normalize exW)) (pa4 exSg c) (onSub exSg c fun _ _ => 1) i =
      share4 exSg (DR.normalize exW) c := treatedShare_sub hc4 _
    rw [e]
    clear hs i hc4 e
    revert c
    decide +kernel
  rw [this]
  exact hs

lemma exReg : RegFits (meanFits exSg) (DR.normalize exW) (fun _ _ => 1) (fun i => exY1 i - exY0 i) () := by
  refine ⟨fun _ => rfl, fun c hc l => ?_, exFits.ols⟩
  have : compGram exSg c (DR.normalize exW) (fun _ _ => 1) () () ≠ 0 := by
    revert c
    decide +kernel
  simp [meanFits, this]

example (m : Est) : ∃ r, dddPanel (meanFits exSg) m (9/10) (99/100) exY1 exY0 (fun _ _ => (1 : ℚ)) exW = .ok r ∧
    mean r.2 = 0 := by
  obtain ⟨r, h, _⟩ := ex_runs m
  exact ⟨r, h, C50_mean_zero m _ _ _ _ _ _ _ (exFirstOrder m) r h⟩

example (m : Est) : ∃ r, dddPanel (meanFits exSg) m (9/10) (99/100) exY1 exY0 (fun _ _ => (1 : ℚ)) exW = .ok r ∧
    r.2 2 = embed exSg 3 (twoGroupIF m (meanFits exSg) (9/10) (99/100) 3 (DR.normalize exW) (fun _ _ => 1)
      fun i => exY1 i - exY0 i) 2 := by
  obtain ⟨r, h, _⟩ := ex_runs m
  exact ⟨r, h, C50_untreated_units m _ _ _ _ _ _ _ (fun _ => ⟨(), exReg⟩) r h 2 (by decide)⟩

example : ∃ r, dddPanel (meanFits exSg) .reg (9/10) (99/100) exY1 exY0 (fun _ _ => (1 : ℚ)) exW = .ok r ∧
    r.1 = 13 / 2 ∧ r.1 =
      DR.regPanel (pa4 exSg 3) (prediction (meanFits exSg) 3 (DR.normalize exW) (fun _ _ => 1) fun i => exY1 i - exY0 i)
        (onSub exSg 3 fun i => exY1 i - exY0 i) (onSub exSg 3 (DR.normalize exW)) +
      DR.regPanel (pa4 exSg 2) (prediction (meanFits exSg) 2 (DR.normalize exW) (fun _ _ => 1) fun i => exY1 i - exY0 i)
        (onSub exSg 2 fun i => exY1 i - exY0 i) (onSub exSg 2 (DR.normalize exW)) -
      DR.regPanel (pa4 exSg 1) (prediction (meanFits exSg) 1 (DR.normalize exW) (fun _ _ => 1) fun i => exY1 i - exY0 i)
        (onSub exSg 1 fun i => exY1 i - exY0 i) (onSub exSg 1 (DR.normalize exW)) := by
  obtain ⟨r, h, hv⟩ := ex_runs .reg
  exact ⟨r, h, hv, C49_reg_combination _ _ _ _ _ _ _ () (fun _ => rfl) exFits.ols r h⟩

end Verif.Triple
