import Verif.DR.Spec
import Mathlib.Tactic.Ring
import Mathlib.Tactic.FieldSimp
import Mathlib.Tactic.LinearCombination
import Mathlib.Algebra.Order.BigOperators.Ring.Finset

set_option linter.unusedSectionVars false

/-!
# Two-period estimators: auxiliary lemmas
-/

namespace Verif.DR

variable {ι κ K : Type*} [Fintype ι] [Fintype κ] [Field K]

lemma ind_true {b : ι → Bool} {i : ι} (h : b i = true) : (ind b i : K) = 1 := by simp [ind, h]
lemma ind_false {b : ι → Bool} {i : ι} (h : b i = false) : (ind b i : K) = 0 := by simp [ind, h]

lemma sum_ind (b : ι → Bool) (f : ι → K) : ∑ i, ind b i * f i = ∑ i with b i = true, f i := by
  rw [Finset.sum_filter]
  refine Finset.sum_congr rfl fun i _ => ?_
  cases h : b i <;> simp [ind, h]

lemma hmean_eq_wmean (w v : ι → K) : hmean w v = wmean w v := by
  unfold hmean wmean mean
  rw [← Finset.sum_div]
  ring

variable [CharZero K]

lemma card_ne [Nonempty ι] : (Fintype.card ι : K) ≠ 0 := by
  exact_mod_cast Fintype.card_ne_zero

lemma wmean_eq [Nonempty ι] (w v : ι → K) : wmean w v = (∑ i, w i * v i) / ∑ i, w i := by
  unfold wmean mean
  rw [div_div_div_cancel_right₀ card_ne]

lemma mean_eq_zero [Nonempty ι] (f : ι → K) : mean f = 0 ↔ ∑ i, f i = 0 := by
  unfold mean
  rw [div_eq_zero_iff]
  simp [card_ne (ι := ι) (K := K)]

lemma wmean_scale [Nonempty ι] {c : K} (hc : c ≠ 0) (w v : ι → K) :
    wmean (fun i => c * w i) v = wmean w v := by
  rw [wmean_eq, wmean_eq]
  simp only [mul_assoc, ← Finset.mul_sum]
  rw [mul_div_mul_left _ _ hc]

lemma wmean_add (w u v : ι → K) : wmean w (fun i => u i + v i) = wmean w u + wmean w v := by
  unfold wmean mean
  simp only [mul_add, Finset.sum_add_distrib]
  ring

lemma wmean_sub (w u v : ι → K) : wmean w (fun i => u i - v i) = wmean w u - wmean w v := by
  unfold wmean mean
  simp only [mul_sub, Finset.sum_sub_distrib]
  ring

lemma wmean_smul (w v : ι → K) (c : K) : wmean w (fun i => c * v i) = c * wmean w v := by
  unfold wmean mean
  rw [← mul_div_assoc, ← mul_div_assoc, Finset.mul_sum]
  congr 2
  refine Finset.sum_congr rfl fun i _ => by ring

lemma wmean_const (w : ι → K) (c : K) (h : mean w ≠ 0) : wmean w (fun _ => c) = c := by
  unfold wmean
  have : mean (fun i => w i * c) = mean w * c := by
    unfold mean
    rw [← Finset.sum_mul]
    ring
  rw [this, mul_div_assoc, mul_comm, div_mul_cancel₀ _ h]

lemma wmean_congr {w u v : ι → K} (h : ∀ i, w i ≠ 0 → u i = v i) : wmean w u = wmean w v := by
  unfold wmean mean
  congr 2
  refine Finset.sum_congr rfl fun i _ => ?_
  by_cases hw : w i = 0
  · simp [hw]
  · show w i * u i = w i * v i
    rw [h i hw]

/-- Ratio of means with indicator weights is the weighted average over the group. -/
lemma wmean_group [Nonempty ι] (b : ι → Bool) (w v : ι → K) :
    wmean (fun i => ind b i * w i) v = wavg w (fun i => b i = true) v := by
  rw [wmean_eq]
  unfold wavg
  simp only [mul_assoc]
  rw [sum_ind b (fun i => w i * v i), sum_ind b w]

lemma wavg_scale {c : K} (hc : c ≠ 0) (w v : ι → K) (S : ι → Prop) [DecidablePred S] :
    wavg (fun i => c * w i) S v = wavg w S v := by
  unfold wavg
  simp only [mul_assoc, ← Finset.mul_sum]
  rw [mul_div_mul_left _ _ hc]

lemma wavg_congr (w v : ι → K) {S T : ι → Prop} [DecidablePred S] [DecidablePred T] (h : ∀ i, S i ↔ T i) :
    wavg w S v = wavg w T v := by
  unfold wavg
  have : (Finset.univ.filter S) = Finset.univ.filter T := by ext i; simp [h]
  rw [this]

lemma wavg_normalize (w v : ι → K) (hw : mean w ≠ 0) (S : ι → Prop) [DecidablePred S] :
    wavg (normalize w) S v = wavg w S v := by
  have : normalize w = fun i => (mean w)⁻¹ * w i := by
    funext i; unfold normalize; rw [div_eq_inv_mul]
  rw [this, wavg_scale (inv_ne_zero hw)]

section Trim
variable [LinearOrder K]

lemma trim_treated {level : K} {d : ι → Bool} {ps : ι → K} {i : ι} (h : d i = true) :
    trim level d ps i = true := by simp [trim, h]

lemma wTreat_trim (level : K) (d : ι → Bool) (ps w : ι → K) :
    wTreat d (trim level d ps) w = fun i => ind d i * w i := by
  funext i
  unfold wTreat
  cases h : d i
  · simp [ind, h]
  · rw [ind_true (trim_treated h)]; ring

lemma wCont_const {level p : K} (hp : p < level) (d : ι → Bool) (w : ι → K) :
    wCont d (trim level d (fun _ => p)) (fun _ => p) w =
      fun i => (p / (1 - p)) * (ind (notB d) i * w i) := by
  funext i
  unfold wCont
  cases h : d i
  · have h1 : trim level d (fun _ => p) i = true := by simp [trim, h, hp]
    have h2 : notB d i = true := by simp [notB, h]
    rw [ind_true h1, ind_true h2, ind_false h]
    ring
  · have h2 : notB d i = false := by simp [notB, h]
    rw [ind_true h, ind_false h2]
    ring

lemma wCont_const_trimmed {level p : K} (hp : level ≤ p) (d : ι → Bool) (w : ι → K) :
    wCont d (trim level d (fun _ => p)) (fun _ => p) w = fun _ => 0 := by
  funext i
  unfold wCont
  cases h : d i
  · have h1 : trim level d (fun _ => p) i = false := by simp [trim, h, hp]
    rw [ind_false h1]; ring
  · rw [ind_true h]; ring

end Trim

end Verif.DR
