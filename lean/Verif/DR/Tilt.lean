import Verif.DR.TiltModel
import Mathlib.Analysis.SpecialFunctions.Log.Basic
import Mathlib.Analysis.SpecialFunctions.Exp
import Mathlib.Analysis.Calculus.Deriv.Pow
import Mathlib.Tactic.Linarith
import Mathlib.Tactic.LinearCombination
import Mathlib.Tactic.Positivity
import Mathlib.Tactic.FieldSimp
import Mathlib.Algebra.BigOperators.Fin
import Mathlib.Data.Fin.VecNotation

set_option linter.unusedSectionVars false
set_option linter.unusedSimpArgs false

/-!
# Calibrated propensity scores: C118 (balance), C119 (objective), C120 (fallback objective)

Specification: a score *balances* the sample when, for every covariate, the weighted total over treated observations
equals the weighted total over comparison observations reweighted by the odds of the score.
-/

namespace Verif.DR.Tilt

open Verif.DR

variable {ι κ : Type*} [Fintype ι] [Fintype κ]

/-- Treated totals equal odds-weighted comparison totals, covariate by covariate. -/
def Balances (w : ι → ℝ) (d : ι → Bool) (x : ι → κ → ℝ) (ps : ι → ℝ) : Prop :=
  ∀ k, ∑ i with d i = true, w i * x i k = ∑ i with d i = false, w i * (ps i / (1 - ps i)) * x i k

/-- Indices stay inside the clipping range. -/
def InRange (x : ι → κ → ℝ) (γ : κ → ℝ) : Prop := ∀ i, |fitted x γ i| < 500

lemma clip_eq {v : ℝ} (h : |v| < 500) : clip v = v := by
  have := abs_lt.1 h
  unfold clip
  rw [min_eq_left this.2.le, max_eq_right this.1.le]

lemma odds_psOf (x : ι → κ → ℝ) (γ : κ → ℝ) (i : ι) :
    psOf x γ i / (1 - psOf x γ i) = Real.exp (fitted x γ i) := by
  unfold psOf; rw [odds_logistic]

lemma calGrad_eq (d : ι → Bool) (x : ι → κ → ℝ) (iw : ι → ℝ) {γ : κ → ℝ} (h : InRange x γ) (k : κ) :
    calGrad d x iw γ k = (∑ i with d i = false, iw i * (psOf x γ i / (1 - psOf x γ i)) * x i k
      - ∑ i with d i = true, iw i * x i k) / (Fintype.card ι : ℝ) := by
  unfold calGrad mean
  rw [← neg_div]
  congr 1
  rw [Finset.sum_filter, Finset.sum_filter, ← Finset.sum_sub_distrib, ← Finset.sum_neg_distrib]
  refine Finset.sum_congr rfl fun i _ => ?_
  rw [odds_psOf, clip_eq (h i)]
  cases d i <;> simp only [Bool.false_eq_true, if_false, if_true, reduceCtorEq] <;> ring

/-- **C118**: the gradient handed to the optimiser vanishes exactly when the score balances the sample. -/
theorem C118_balance [Nonempty ι] (d : ι → Bool) (x : ι → κ → ℝ) (iw : ι → ℝ) (γ : κ → ℝ) (h : InRange x γ) :
    (∀ k, calGrad d x iw γ k = 0) ↔ Balances iw d x (psOf x γ) := by
  have hn : (Fintype.card ι : ℝ) ≠ 0 := by exact_mod_cast Fintype.card_ne_zero
  unfold Balances
  refine forall_congr' fun k => ?_
  rw [calGrad_eq d x iw h, div_eq_zero_iff, or_iff_left hn, sub_eq_zero, eq_comm]

/-- **C118**: with a constant column, the odds-weighted comparison mean of every covariate equals the treated mean. -/
theorem C118_means [Nonempty ι] (d : ι → Bool) (x : ι → κ → ℝ) (iw : ι → ℝ) (γ : κ → ℝ) (h : InRange x γ)
    (k0 : κ) (hc : ∀ i, x i k0 = 1) (hg : ∀ k, calGrad d x iw γ k = 0) (k : κ) :
    (∑ i with d i = true, iw i * x i k) / (∑ i with d i = true, iw i) =
      (∑ i with d i = false, iw i * (psOf x γ i / (1 - psOf x γ i)) * x i k) /
        (∑ i with d i = false, iw i * (psOf x γ i / (1 - psOf x γ i))) := by
  have hb := (C118_balance d x iw γ h).1 hg
  have h0 := hb k0
  simp only [hc, mul_one] at h0
  rw [hb k, h0]

/-- **C118**: a column dropped as collinear is balanced too. -/
theorem C118_dropped [Nonempty ι] (d : ι → Bool) (x : ι → κ → ℝ) (iw : ι → ℝ) (γ : κ → ℝ) (h : InRange x γ)
    (hg : ∀ k, calGrad d x iw γ k = 0) (z : ι → ℝ) (c : κ → ℝ) (hz : ∀ i, z i = ∑ k, x i k * c k) :
    ∑ i with d i = true, iw i * z i = ∑ i with d i = false, iw i * (psOf x γ i / (1 - psOf x γ i)) * z i := by
  have hb := (C118_balance d x iw γ h).1 hg
  simp only [hz, Finset.mul_sum]
  rw [Finset.sum_comm, Finset.sum_comm (s := Finset.univ.filter fun i => d i = false)]
  refine Finset.sum_congr rfl fun k _ => ?_
  have := congrArg (· * c k) (hb k)
  simp only [Finset.sum_mul] at this
  calc _ = _ := Finset.sum_congr rfl fun i _ => by ring
    _ = _ := this
    _ = _ := Finset.sum_congr rfl fun i _ => by ring

/-! ## The objective -/

/-- Moving from `γ` in direction `δ`. -/
def along (γ δ : κ → ℝ) (t : ℝ) (k : κ) : ℝ := γ k + t * δ k

lemma fitted_along (x : ι → κ → ℝ) (γ δ : κ → ℝ) (t : ℝ) (i : ι) :
    fitted x (along γ δ t) i = fitted x γ i + t * fitted x δ i := by
  unfold fitted along
  rw [Finset.mul_sum, ← Finset.sum_add_distrib]
  exact Finset.sum_congr rfl fun k _ => by ring

lemma hasDerivAt_fitted_along (x : ι → κ → ℝ) (γ δ : κ → ℝ) (i : ι) :
    HasDerivAt (fun t => fitted x (along γ δ t) i) (fitted x δ i) 0 := by
  simp only [fitted_along]
  simpa using ((hasDerivAt_id (0:ℝ)).mul_const (fitted x δ i)).const_add (fitted x γ i)

lemma along_zero (γ δ : κ → ℝ) : along γ δ 0 = γ := by funext k; simp [along]

lemma hasDerivAt_expclip {f : ℝ → ℝ} {f' : ℝ} (hf : HasDerivAt f f' 0) (h : |f 0| < 500) :
    HasDerivAt (fun t => Real.exp (clip (f t))) (Real.exp (clip (f 0)) * f') 0 := by
  have hev : ∀ᶠ t in nhds (0:ℝ), |f t| < 500 :=
    (hf.continuousAt.abs).eventually (gt_mem_nhds h)
  have h1 : HasDerivAt (fun t => Real.exp (f t)) (Real.exp (f 0) * f') 0 := hf.exp
  rw [clip_eq h]
  refine h1.congr_of_eventuallyEq ?_
  filter_upwards [hev] with t ht
  rw [clip_eq ht]

/-- **C119**: the reported gradient is the derivative of the reported value in every direction. -/
theorem C119_gradient (d : ι → Bool) (x : ι → κ → ℝ) (iw : ι → ℝ) (γ δ : κ → ℝ) (h : InRange x γ) :
    HasDerivAt (fun t => calValue d x iw (along γ δ t)) (∑ k, calGrad d x iw γ k * δ k) 0 := by
  have hterm : ∀ i, HasDerivAt (fun t => (if d i then fitted x (along γ δ t) i
      else -Real.exp (clip (fitted x (along γ δ t) i))) * iw i)
      ((if d i then 1 else -Real.exp (clip (fitted x γ i))) * iw i * fitted x δ i) 0 := by
    intro i
    have hf := hasDerivAt_fitted_along x γ δ i
    cases hd : d i
    · have := ((hasDerivAt_expclip hf (by rw [along_zero]; exact h i)).neg).mul_const (iw i)
      simp only [Bool.false_eq_true, if_false]
      refine this.congr_deriv ?_
      rw [along_zero]; ring
    · simp only [if_true]
      exact (hf.mul_const (iw i)).congr_deriv (by ring)
  classical
  refine (hasDerivAt_mean hterm).neg.congr_deriv ?_
  classical
  rw [mean_fitted]
  unfold dot calGrad
  rw [← Finset.sum_neg_distrib]
  exact Finset.sum_congr rfl fun k _ => by ring

/-- **C119**: the reported Hessian is the derivative of the reported gradient in every direction. -/
theorem C119_hessian (d : ι → Bool) (x : ι → κ → ℝ) (iw : ι → ℝ) (γ δ : κ → ℝ) (h : InRange x γ) (k : κ) :
    HasDerivAt (fun t => calGrad d x iw (along γ δ t) k) (∑ l, calHess d x iw γ k l * δ l) 0 := by
  have hterm : ∀ i, HasDerivAt (fun t => (if d i then 1
      else -Real.exp (clip (fitted x (along γ δ t) i))) * iw i * x i k)
      ((if d i then 0 else -Real.exp (clip (fitted x γ i))) * iw i * x i k * fitted x δ i) 0 := by
    intro i
    have hf := hasDerivAt_fitted_along x γ δ i
    cases hd : d i
    · have := (((hasDerivAt_expclip hf (by rw [along_zero]; exact h i)).neg).mul_const (iw i)).mul_const (x i k)
      simp only [Bool.false_eq_true, if_false]
      refine this.congr_deriv ?_
      rw [along_zero]; ring
    · simp only [if_true]
      exact (hasDerivAt_const _ _).congr_deriv (by ring)
  classical
  refine (hasDerivAt_mean hterm).neg.congr_deriv ?_
  classical
  rw [mean_fitted]
  unfold dot calHess mean
  rw [← Finset.sum_neg_distrib]
  refine Finset.sum_congr rfl fun l _ => ?_
  rw [show -(∑ i, x i k * (x i l * ((if d i then 0 else -Real.exp (clip (fitted x γ i))) * iw i))) /
      (Fintype.card ι : ℝ) = -((∑ i, x i k * (x i l * ((if d i then 0 else -Real.exp (clip (fitted x γ i))) * iw i))) /
      (Fintype.card ι : ℝ)) from neg_div _ _, neg_mul, neg_inj, mul_comm]
  dsimp only
  refine congrArg (fun z => z / (Fintype.card ι : ℝ) * δ l) ?_
  exact Finset.sum_congr rfl fun i _ => by ring

lemma exp_tangent (a b : ℝ) : Real.exp a + Real.exp a * (b - a) ≤ Real.exp b := by
  have h := Real.add_one_le_exp (b - a)
  have : Real.exp b = Real.exp a * Real.exp (b - a) := by rw [← Real.exp_add]; congr 1; ring
  rw [this]
  nlinarith [Real.exp_pos a]

lemma fitted_sub (x : ι → κ → ℝ) (γ γ' : κ → ℝ) (i : ι) :
    fitted x (fun k => γ' k - γ k) i = fitted x γ' i - fitted x γ i := by
  unfold fitted
  rw [← Finset.sum_sub_distrib]
  exact Finset.sum_congr rfl fun k _ => by ring

/-- The value lies above every tangent plane. -/
lemma cal_tangent (d : ι → Bool) (x : ι → κ → ℝ) (iw : ι → ℝ) (hw : ∀ i, 0 ≤ iw i) (γ γ' : κ → ℝ)
    (h : InRange x γ) (h' : InRange x γ') :
    calValue d x iw γ + ∑ k, calGrad d x iw γ k * (γ' k - γ k) ≤ calValue d x iw γ' := by
  have e : ∑ k, calGrad d x iw γ k * (γ' k - γ k) =
      -mean (fun i => (if d i then 1 else -Real.exp (clip (fitted x γ i))) * iw i *
        (fitted x γ' i - fitted x γ i)) := by
    classical
    simp only [← fitted_sub]
    rw [mean_fitted]
    unfold dot calGrad
    rw [← Finset.sum_neg_distrib]
    exact Finset.sum_congr rfl fun k _ => by ring
  rw [e]
  unfold calValue mean
  rw [← neg_add, neg_le_neg_iff, ← add_div, ← Finset.sum_add_distrib]
  refine div_le_div_of_nonneg_right ?_ (Nat.cast_nonneg _)
  refine Finset.sum_le_sum fun i _ => ?_
  rw [clip_eq (h i), clip_eq (h' i)]
  cases d i
  · have := mul_le_mul_of_nonneg_right (exp_tangent (fitted x γ i) (fitted x γ' i)) (hw i)
    simp only [Bool.false_eq_true, if_false]
    linarith
  · simp only [if_true]; linarith

/-- **C119**: coefficients at which the gradient vanishes minimise the objective among all coefficients whose indices
stay inside the clipping range. -/
theorem C119_minimiser (d : ι → Bool) (x : ι → κ → ℝ) (iw : ι → ℝ) (hw : ∀ i, 0 ≤ iw i) (γ : κ → ℝ)
    (h : InRange x γ) (hg : ∀ k, calGrad d x iw γ k = 0) (γ' : κ → ℝ) (h' : InRange x γ') :
    calValue d x iw γ ≤ calValue d x iw γ' := by
  simpa [hg] using cal_tangent d x iw hw γ γ' h h'

/-- **C119**: the balancing coefficients are unique when the weighted comparison rows have full rank. -/
theorem C119_unique [Nonempty ι] (d : ι → Bool) (x : ι → κ → ℝ) (iw : ι → ℝ) (hw : ∀ i, d i = false → 0 < iw i)
    (hr : FullRank iw (fun i => !d i) x) (γ γ' : κ → ℝ)
    (hb : Balances iw d x (psOf x γ)) (hb' : Balances iw d x (psOf x γ')) : γ = γ' := by
  have key : ∑ i with d i = false, iw i * ((Real.exp (fitted x γ' i) - Real.exp (fitted x γ i)) *
      (fitted x γ' i - fitted x γ i)) = 0 := by
    have e : ∀ k, ∑ i with d i = false, iw i * (Real.exp (fitted x γ' i) - Real.exp (fitted x γ i)) * x i k = 0 := by
      intro k
      have a := hb k
      have b := hb' k
      simp only [odds_psOf] at a b
      rw [a] at b
      rw [← sub_eq_zero, ← Finset.sum_sub_distrib] at b
      rw [← neg_eq_zero, ← Finset.sum_neg_distrib, ← b]
      exact Finset.sum_congr rfl fun i _ => by ring
    simp only [← fitted_sub]
    unfold fitted
    simp only [Finset.mul_sum]
    rw [Finset.sum_comm]
    refine Finset.sum_eq_zero fun k _ => ?_
    have := congrArg (· * (γ' k - γ k)) (e k)
    simp only [Finset.sum_mul, zero_mul] at this
    rw [← this]
    exact Finset.sum_congr rfl fun i _ => by unfold fitted; ring
  have hnn : ∀ a b : ℝ, 0 ≤ (Real.exp b - Real.exp a) * (b - a) := by
    intro a b
    rcases le_total a b with hab | hab
    · exact mul_nonneg (sub_nonneg.2 (Real.exp_le_exp.2 hab)) (sub_nonneg.2 hab)
    · exact mul_nonneg_of_nonpos_of_nonpos (sub_nonpos.2 (Real.exp_le_exp.2 hab)) (sub_nonpos.2 hab)
  have hz := (Finset.sum_eq_zero_iff_of_nonneg (fun i hi => mul_nonneg
    (hw i (Finset.mem_filter.1 hi).2).le (hnn _ _))).1 key
  have hv : ∀ i, d i = false → fitted x γ' i = fitted x γ i := by
    intro i hi
    have := hz i (Finset.mem_filter.2 ⟨Finset.mem_univ _, hi⟩)
    rcases mul_eq_zero.1 this with h0 | h0
    · exact absurd h0 (hw i hi).ne'
    · rcases mul_eq_zero.1 h0 with h1 | h1
      · exact Real.exp_injective (sub_eq_zero.1 h1)
      · exact sub_eq_zero.1 h1
  have := hr (fun k => γ' k - γ k) (fun k => Finset.sum_eq_zero fun i hi => by
    have hi' : d i = false := by simpa using (Finset.mem_filter.1 hi).2
    have e := fitted_sub x γ γ' i
    unfold fitted at e
    have e2 := hv i hi'
    unfold fitted at e2
    rw [e, e2]; ring)
  funext k
  have := congrFun this k
  simp only [Pi.zero_apply] at this
  linarith

/-! ## The fallback objective -/

lemma exp_vStar {n : ℝ} (hn : 1 < n) : Real.exp (vStar n) = n - 1 := Real.exp_log (by linarith)

/-- The quadratic branch. -/
lemma quad_vStar (n : ℝ) : an n + bn n * vStar n + 1 / 2 * cn n * vStar n ^ 2 = -vStar n - (n - 1) := by
  unfold an bn cn; ring

lemma hasDerivAt_glue {f g : ℝ → ℝ} {f' c : ℝ} (hf : HasDerivAt f f' c) (hg : HasDerivAt g f' c) (e : f c = g c) :
    HasDerivAt (fun v => if v < c then f v else g v) f' c := by
  rw [← hasDerivWithinAt_univ, ← Set.Iic_union_Ici (a := c)]
  refine HasDerivWithinAt.union ?_ ?_
  · refine hf.hasDerivWithinAt.congr (fun v hv => ?_) (by simp [e])
    rcases lt_or_eq_of_le (Set.mem_Iic.1 hv) with h | h
    · simp [h]
    · simp [h, e]
  · exact hg.hasDerivWithinAt.congr (fun v hv => by simp [not_lt.2 (Set.mem_Ici.1 hv)]) (by simp)

lemma hasDerivAt_branch {f g : ℝ → ℝ} {f' g' : ℝ → ℝ} {c v : ℝ} (hf : v ≤ c → HasDerivAt f (f' v) v)
    (hg : HasDerivAt g (g' v) v) (e : f c = g c) (e' : f' c = g' c) :
    HasDerivAt (fun v => if v < c then f v else g v) (if v < c then f' v else g' v) v := by
  rcases lt_trichotomy v c with h | h | h
  · rw [if_pos h]
    refine (hf h.le).congr_of_eventuallyEq ?_
    filter_upwards [gt_mem_nhds h] with t ht
    exact if_pos ht
  · subst h
    rw [if_neg (lt_irrefl _)]
    exact hasDerivAt_glue (by rw [← e']; exact hf le_rfl) hg e
  · rw [if_neg h.not_gt]
    refine hg.congr_of_eventuallyEq ?_
    filter_upwards [lt_mem_nhds h] with t ht
    exact if_neg (not_lt.2 (le_of_lt ht))

lemma hasDerivAt_quad (n v : ℝ) :
    HasDerivAt (fun v => an n + bn n * v + 1 / 2 * cn n * v ^ 2) (bn n + cn n * v) v := by
  have := (((hasDerivAt_id v).const_mul (bn n)).const_add (an n)).add ((hasDerivAt_pow 2 v).const_mul (1 / 2 * cn n))
  refine this.congr_deriv ?_
  norm_num; ring

lemma hasDerivAt_lin (n v : ℝ) : HasDerivAt (fun v => bn n + cn n * v) (cn n) v := by
  simpa using ((hasDerivAt_id v).const_mul (cn n)).const_add (bn n)

lemma hasDerivAt_expc {v : ℝ} (hv : |v| < 500) : HasDerivAt (fun v => Real.exp (clip v)) (Real.exp (clip v)) v := by
  have hev : ∀ᶠ t in nhds v, |t| < 500 := (continuousAt_id.abs).eventually (gt_mem_nhds hv)
  rw [clip_eq hv]
  refine (Real.hasDerivAt_exp v).congr_of_eventuallyEq ?_
  filter_upwards [hev] with t ht
  rw [clip_eq ht]

/-- Sample sizes for which the switch point lies inside the clipping range. -/
def Size (n : ℝ) : Prop := 1 < n ∧ |vStar n| < 500

lemma hasDerivAt_phi {n : ℝ} (hn : Size n) {v : ℝ} (hv : |v| < 500) : HasDerivAt (phi n) (phi1 n v) v := by
  refine hasDerivAt_branch (f := fun v => -v - Real.exp (clip v)) (f' := fun v => -1 - Real.exp (clip v))
    (g' := fun v => bn n + cn n * v) (fun _ => (hasDerivAt_id v).neg.sub (hasDerivAt_expc hv)) (hasDerivAt_quad n v) ?_ ?_
  · rw [quad_vStar, clip_eq hn.2, exp_vStar hn.1]
  · rw [clip_eq hn.2, exp_vStar hn.1]; unfold bn cn; ring

lemma hasDerivAt_phi1 {n : ℝ} (hn : Size n) {v : ℝ} (hv : |v| < 500) : HasDerivAt (phi1 n) (phi2 n v) v := by
  refine hasDerivAt_branch (f := fun v => -1 - Real.exp (clip v)) (f' := fun v => -Real.exp (clip v))
    (g' := fun _ => cn n) (fun _ => ?_) (hasDerivAt_lin n v) ?_ ?_
  · exact ((hasDerivAt_const v (-1:ℝ)).sub (hasDerivAt_expc hv)).congr_deriv (by ring)
  · rw [clip_eq hn.2, exp_vStar hn.1]; unfold bn cn; ring
  · rw [clip_eq hn.2, exp_vStar hn.1]; unfold cn; ring

/-- **C120**: the gradient of the fallback objective is the derivative of its value in every direction. -/
theorem C120_gradient (d : ι → Bool) (x : ι → κ → ℝ) (iw : ι → ℝ) (γ δ : κ → ℝ) (h : InRange x γ)
    (hn : Size (Fintype.card ι : ℝ)) :
    HasDerivAt (fun t => iptValue d x iw (along γ δ t)) (∑ k, iptGrad d x iw γ k * δ k) 0 := by
  have hterm : ∀ i ∈ Finset.univ, HasDerivAt (fun t => iw i * (1 - ind d i) * phi (Fintype.card ι : ℝ) (fitted x (along γ δ t) i)
      + fitted x (along γ δ t) i)
      ((iw i * (1 - ind d i) * phi1 (Fintype.card ι : ℝ) (fitted x γ i) + 1) * fitted x δ i) 0 := by
    intro i _
    have hf := hasDerivAt_fitted_along x γ δ i
    have hp : HasDerivAt (phi (Fintype.card ι : ℝ)) (phi1 (Fintype.card ι : ℝ) (fitted x γ i))
        (fitted x (along γ δ 0) i) := by rw [along_zero]; exact hasDerivAt_phi hn (h i)
    refine (((hp.comp (0:ℝ) hf).const_mul (iw i * (1 - ind d i))).add hf).congr_deriv ?_
    ring
  refine (HasDerivAt.fun_sum hterm).neg.congr_deriv ?_
  unfold iptGrad fitted
  simp only [Finset.mul_sum, neg_mul, Finset.sum_mul]
  rw [Finset.sum_comm, ← Finset.sum_neg_distrib]
  exact Finset.sum_congr rfl fun k _ => by
    rw [neg_inj]
    exact Finset.sum_congr rfl fun i _ => by ring

/-- **C120**: the Hessian of the fallback objective is the derivative of its gradient in every direction. -/
theorem C120_hessian (d : ι → Bool) (x : ι → κ → ℝ) (iw : ι → ℝ) (γ δ : κ → ℝ) (h : InRange x γ)
    (hn : Size (Fintype.card ι : ℝ)) (k : κ) :
    HasDerivAt (fun t => iptGrad d x iw (along γ δ t) k) (∑ l, iptHess d x iw γ k l * δ l) 0 := by
  have hterm : ∀ i ∈ Finset.univ, HasDerivAt (fun t => x i k * (iw i * (1 - ind d i) *
      phi1 (Fintype.card ι : ℝ) (fitted x (along γ δ t) i) + 1))
      (x i k * (iw i * (1 - ind d i) * (phi2 (Fintype.card ι : ℝ) (fitted x γ i) * fitted x δ i))) 0 := by
    intro i _
    have hf := hasDerivAt_fitted_along x γ δ i
    have hp : HasDerivAt (phi1 (Fintype.card ι : ℝ)) (phi2 (Fintype.card ι : ℝ) (fitted x γ i))
        (fitted x (along γ δ 0) i) := by rw [along_zero]; exact hasDerivAt_phi1 hn (h i)
    exact ((((hp.comp (0:ℝ) hf).const_mul (iw i * (1 - ind d i))).add_const 1).const_mul (x i k))
  refine (HasDerivAt.fun_sum hterm).neg.congr_deriv ?_
  unfold iptHess fitted
  simp only [Finset.mul_sum, neg_mul, Finset.sum_mul]
  rw [Finset.sum_comm, ← Finset.sum_neg_distrib]
  exact Finset.sum_congr rfl fun k _ => by
    rw [neg_inj]
    exact Finset.sum_congr rfl fun i _ => by ring

lemma phi1_anti {n : ℝ} (hn : Size n) {v v' : ℝ} (hv : |v| < 500) (hv' : |v'| < 500) (h : v ≤ v') :
    phi1 n v' ≤ phi1 n v := by
  unfold phi1
  have hc : cn n ≤ 0 := by unfold cn; linarith [hn.1]
  have e : bn n + cn n * vStar n = -1 - Real.exp (vStar n) := by rw [exp_vStar hn.1]; unfold bn cn; ring
  rw [clip_eq hv, clip_eq hv']
  split_ifs with h1 h2 h2
  · linarith [Real.exp_le_exp.2 h]
  · exact absurd (lt_of_le_of_lt h h1) h2
  · have := Real.exp_le_exp.2 h2.le
    nlinarith [not_lt.1 h1]
  · nlinarith

lemma phi_tangent {n : ℝ} (hn : Size n) {v v' : ℝ} (hv : |v| < 500) (hv' : |v'| < 500) :
    phi n v' ≤ phi n v + phi1 n v * (v' - v) := by
  have hc : cn n ≤ 0 := by unfold cn; linarith [hn.1]
  -- left and right pieces
  have left : ∀ a b, |a| < 500 → |b| < 500 → a ≤ vStar n → b ≤ vStar n →
      phi n b ≤ phi n a + phi1 n a * (b - a) := by
    have e : ∀ a, |a| < 500 → a ≤ vStar n → phi n a = -a - Real.exp a ∧ phi1 n a = -1 - Real.exp a := by
      intro a ha hle
      unfold phi phi1
      rcases lt_or_eq_of_le hle with h | h
      · simp only [h, if_true, clip_eq ha, and_self]
      · subst h
        simp only [lt_irrefl, if_false]
        rw [quad_vStar, exp_vStar hn.1]
        refine ⟨rfl, ?_⟩
        unfold bn cn; ring
    intro a b ha hb hla hlb
    rw [(e a ha hla).1, (e a ha hla).2, (e b hb hlb).1]
    linarith [exp_tangent a b]
  have right : ∀ a b, vStar n ≤ a → vStar n ≤ b → phi n b ≤ phi n a + phi1 n a * (b - a) := by
    intro a b ha hb
    unfold phi phi1
    rw [if_neg (not_lt.2 ha), if_neg (not_lt.2 hb), if_neg (not_lt.2 ha)]
    nlinarith [mul_nonneg (neg_nonneg.2 hc) (sq_nonneg (b - a))]
  rcases le_total v (vStar n) with h | h <;> rcases le_total v' (vStar n) with h' | h'
  · exact left v v' hv hv' h h'
  · have a := left v (vStar n) hv hn.2 h le_rfl
    have b := right (vStar n) v' le_rfl h'
    have c := phi1_anti hn hv hn.2 h
    nlinarith
  · have a := right v (vStar n) h le_rfl
    have b := left (vStar n) v' hn.2 hv' le_rfl h'
    have c := phi1_anti hn hn.2 hv h
    nlinarith
  · exact right v v' h h'

/-- **C120**: coefficients at which the gradient of the fallback vanishes minimise its value among all coefficients
whose indices stay inside the clipping range. -/
theorem C120_minimiser (d : ι → Bool) (x : ι → κ → ℝ) (iw : ι → ℝ) (hw : ∀ i, 0 ≤ iw i) (γ : κ → ℝ)
    (hn : Size (Fintype.card ι : ℝ)) (h : InRange x γ) (hg : ∀ k, iptGrad d x iw γ k = 0) (γ' : κ → ℝ)
    (h' : InRange x γ') : iptValue d x iw γ ≤ iptValue d x iw γ' := by
  have e : ∑ i, (iw i * (1 - ind d i) * phi1 (Fintype.card ι : ℝ) (fitted x γ i) + 1) *
      (fitted x γ' i - fitted x γ i) = 0 := by
    simp only [← fitted_sub]
    unfold fitted
    simp only [Finset.mul_sum]
    rw [Finset.sum_comm]
    refine Finset.sum_eq_zero fun k _ => ?_
    have := congrArg (· * (γ' k - γ k)) (neg_eq_zero.1 (hg k))
    simp only [Finset.sum_mul, zero_mul] at this
    rw [← this]
    exact Finset.sum_congr rfl fun i _ => by unfold fitted; ring
  unfold iptValue
  rw [neg_le_neg_iff, ← add_zero (∑ i, (iw i * (1 - ind d i) * phi (Fintype.card ι : ℝ) (fitted x γ i) + _)), ← e,
    ← Finset.sum_add_distrib]
  refine Finset.sum_le_sum fun i _ => ?_
  have hi : 0 ≤ iw i * (1 - ind d i) := mul_nonneg (hw i) (by unfold ind; split_ifs <;> norm_num)
  nlinarith [mul_le_mul_of_nonneg_left (phi_tangent hn (h i) (h' i)) hi]

/-- Comparison units lie below the switch point of the fallback. -/
def Interior (d : ι → Bool) (x : ι → κ → ℝ) (γ : κ → ℝ) : Prop :=
  ∀ i, d i = false → fitted x γ i < vStar (Fintype.card ι : ℝ)

/-- What the fallback balances: comparison observations reweighted by `1 / (1 - score)` against the *unweighted* whole
sample. -/
lemma iptGrad_zero_iff (d : ι → Bool) (x : ι → κ → ℝ) (iw : ι → ℝ) (γ : κ → ℝ) (h : InRange x γ)
    (hi : Interior d x γ) (k : κ) :
    iptGrad d x iw γ k = 0 ↔
      ∑ i, x i k = ∑ i with d i = false, iw i * (1 + psOf x γ i / (1 - psOf x γ i)) * x i k := by
  unfold iptGrad
  rw [neg_eq_zero, ← sub_eq_zero (a := ∑ i, x i k), Finset.sum_filter, ← Finset.sum_sub_distrib]
  refine Eq.congr (Finset.sum_congr rfl fun i _ => ?_) rfl
  rw [odds_psOf]
  cases hd : d i
  · unfold phi1
    rw [if_pos (hi i hd), clip_eq (h i)]
    simp [ind, hd]; ring
  · simp [ind, hd]

/-- **C120**: with unit weights the fallback's first-order condition is the balance of the calibrated score. -/
theorem C120_unit_weights (d : ι → Bool) (x : ι → κ → ℝ) (γ : κ → ℝ) (h : InRange x γ) (hi : Interior d x γ) :
    (∀ k, iptGrad d x (fun _ => 1) γ k = 0) ↔ Balances (fun _ => 1) d x (psOf x γ) := by
  unfold Balances
  refine forall_congr' fun k => ?_
  rw [iptGrad_zero_iff d x _ γ h hi k]
  have e : ∑ i, x i k = ∑ i with d i = true, x i k + ∑ i with d i = false, x i k := by
    rw [← Finset.sum_filter_add_sum_filter_not Finset.univ (fun i => d i = true)]
    simp only [Bool.not_eq_true]
  have e2 : ∑ i with d i = false, (1:ℝ) * (1 + psOf x γ i / (1 - psOf x γ i)) * x i k =
      ∑ i with d i = false, (1:ℝ) * (psOf x γ i / (1 - psOf x γ i)) * x i k + ∑ i with d i = false, x i k := by
    rw [← Finset.sum_add_distrib]
    exact Finset.sum_congr rfl fun i _ => by ring
  rw [e, e2, add_left_inj]
  simp only [one_mul]

end Verif.DR.Tilt
