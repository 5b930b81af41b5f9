import Verif.Honest.FoldedNormal
import Mathlib.Analysis.Calculus.MeanValue
import Mathlib.Analysis.SpecialFunctions.Integrals.Basic
import Mathlib.Analysis.Real.Pi.Bounds

set_option linter.unusedSectionVars false
set_option linter.unusedSimpArgs false

/-!
# Numerical bounds for the standard normal distribution function

`0.975 < Φ(1.96) < 0.97501`, by integrating the alternating series of `exp(-t²/2)`.
-/

namespace Verif.Report

open MeasureTheory ProbabilityTheory Verif.Honest

/-- Partial sum of the series of `exp (-u)`. -/
noncomputable def altSum (n : ℕ) (u : ℝ) : ℝ := ∑ k ∈ Finset.range n, (-u) ^ k / (k.factorial : ℝ)

theorem altSum_deriv (n : ℕ) (u : ℝ) : HasDerivAt (altSum (n + 1)) (-altSum n u) u := by
  unfold altSum
  have h : HasDerivAt (fun u : ℝ => ∑ k ∈ Finset.range (n + 1), (-u) ^ k / (k.factorial : ℝ))
      (∑ k ∈ Finset.range (n + 1), ((k : ℝ) * (-u) ^ (k - 1) * (-1)) / (k.factorial : ℝ)) u := by
    refine HasDerivAt.fun_sum fun k _ => ?_
    exact ((hasDerivAt_neg u).fun_pow k).div_const _
  refine h.congr_deriv ?_
  rw [Finset.sum_range_succ', ← Finset.sum_neg_distrib]
  simp only [Nat.cast_zero, zero_mul, zero_div, add_zero]
  refine Finset.sum_congr rfl fun k _ => ?_
  rw [Nat.add_sub_cancel, Nat.factorial_succ]
  have h1 : ((k : ℝ) + 1) ≠ 0 := by positivity
  have h2 : (k.factorial : ℝ) ≠ 0 := by positivity
  push_cast
  field_simp

theorem exp_deriv (u : ℝ) : HasDerivAt (fun u : ℝ => Real.exp (-u)) (-Real.exp (-u)) u := by
  have := (hasDerivAt_neg u).exp
  simpa using this

/-- The partial sums lie alternately above and below the exponential. -/
theorem alt_sign (n : ℕ) : ∀ u : ℝ, 0 ≤ u → 0 ≤ (-1 : ℝ) ^ n * (Real.exp (-u) - altSum n u) := by
  induction n with
  | zero =>
    intro u _
    simp [altSum]
    positivity
  | succ n ih =>
    intro u hu
    have hd : ∀ x : ℝ, HasDerivAt (fun x => (-1 : ℝ) ^ (n + 1) * (Real.exp (-x) - altSum (n + 1) x))
        ((-1 : ℝ) ^ n * (Real.exp (-x) - altSum n x)) x := by
      intro x
      have := ((exp_deriv x).sub (altSum_deriv n x)).const_mul ((-1 : ℝ) ^ (n + 1))
      refine this.congr_deriv ?_
      rw [pow_succ]; ring
    have hmono : MonotoneOn (fun x => (-1 : ℝ) ^ (n + 1) * (Real.exp (-x) - altSum (n + 1) x)) (Set.Ici 0) := by
      refine monotoneOn_of_deriv_nonneg (convex_Ici 0) (fun x _ => (hd x).continuousAt.continuousWithinAt)
        (fun x _ => (hd x).differentiableAt.differentiableWithinAt) fun x hx => ?_
      rw [(hd x).deriv]
      rw [interior_Ici] at hx
      exact ih x (le_of_lt hx)
    have h0 : (fun x => (-1 : ℝ) ^ (n + 1) * (Real.exp (-x) - altSum (n + 1) x)) 0 = 0 := by
      have : altSum (n + 1) 0 = 1 := by
        unfold altSum
        rw [Finset.sum_range_succ']
        simp
      simp [this]
    have := hmono (Set.mem_Ici.2 le_rfl) (Set.mem_Ici.2 hu) hu
    rw [h0] at this
    exact this

/-- The integral of the partial sum at `t²/2`. -/
noncomputable def altInt (n : ℕ) (x : ℝ) : ℝ :=
  ∑ k ∈ Finset.range n, (-1 : ℝ) ^ k * x ^ (2 * k + 1) / ((2 : ℝ) ^ k * (k.factorial : ℝ) * (2 * k + 1))

theorem altInt_eq (n : ℕ) (x : ℝ) : ∫ t in (0 : ℝ)..x, altSum n (t ^ 2 / 2) = altInt n x := by
  unfold altSum altInt
  rw [intervalIntegral.integral_finsetSum]
  · refine Finset.sum_congr rfl fun k _ => ?_
    have : ∀ t : ℝ, (-(t ^ 2 / 2)) ^ k / (k.factorial : ℝ) = ((-1 : ℝ) ^ k / ((2 : ℝ) ^ k * k.factorial)) * t ^ (2 * k) := by
      intro t
      rw [neg_pow, div_pow, ← pow_mul]
      have h2 : (k.factorial : ℝ) ≠ 0 := by positivity
      field_simp
    simp only [this]
    rw [intervalIntegral.integral_const_mul, integral_pow]
    have h2 : (k.factorial : ℝ) ≠ 0 := by positivity
    have h3 : (2 * (k : ℝ) + 1) ≠ 0 := by positivity
    push_cast
    rw [zero_pow (by omega), sub_zero]
    field_simp
  · intro k _
    exact (by fun_prop : Continuous fun t : ℝ => (-(t ^ 2 / 2)) ^ k / (k.factorial : ℝ)).intervalIntegrable _ _

theorem altSum_cont (n : ℕ) : Continuous fun t : ℝ => altSum n (t ^ 2 / 2) := by
  unfold altSum
  fun_prop

/-- The integral of `exp(-t²/2)` lies between two consecutive partial sums. -/
theorem gauss_int (m : ℕ) (x : ℝ) (hx : 0 ≤ x) :
    altInt (2 * m) x ≤ ∫ t in (0 : ℝ)..x, Real.exp (-(t ^ 2 / 2)) ∧ ∫ t in (0 : ℝ)..x, Real.exp (-(t ^ 2 / 2)) ≤ altInt (2 * m + 1) x := by
  have hc : Continuous fun t : ℝ => Real.exp (-(t ^ 2 / 2)) := by fun_prop
  rw [← altInt_eq, ← altInt_eq]
  constructor
  · refine intervalIntegral.integral_mono_on hx ((altSum_cont _).intervalIntegrable _ _) (hc.intervalIntegrable _ _) fun t _ => ?_
    have := alt_sign (2 * m) (t ^ 2 / 2) (by positivity)
    rw [pow_mul] at this
    norm_num at this
    exact this
  · refine intervalIntegral.integral_mono_on hx (hc.intervalIntegrable _ _) ((altSum_cont _).intervalIntegrable _ _) fun t _ => ?_
    have := alt_sign (2 * m + 1) (t ^ 2 / 2) (by positivity)
    rw [pow_succ, pow_mul] at this
    norm_num at this
    exact this

theorem phi_int (x : ℝ) (hx : 0 ≤ x) : (Phi x - 1 / 2) * Real.sqrt (2 * Real.pi) = ∫ t in (0 : ℝ)..x, Real.exp (-(t ^ 2 / 2)) := by
  rw [← phi_zero, phi_sub 0 x hx, ← intervalIntegral.integral_mul_const]
  refine intervalIntegral.integral_congr fun t _ => ?_
  have hs : Real.sqrt (2 * Real.pi) ≠ 0 := by positivity
  simp only [gaussianPDFReal, NNReal.coe_one, mul_one, sub_zero]
  rw [mul_right_comm, inv_mul_cancel₀ hs, one_mul]
  congr 1
  ring

theorem phi_196_lower : (975 / 1000 : ℝ) < Phi (196 / 100) := by
  have h1 := (gauss_int 8 (196 / 100) (by norm_num)).1
  rw [← phi_int _ (by norm_num)] at h1
  have h2 : (1190652 / 1000000 : ℝ) < altInt (2 * 8) (196 / 100) := by
    unfold altInt
    simp only [Finset.sum_range_succ, Finset.sum_range_zero, Nat.factorial]
    norm_num
  by_contra hc
  rw [not_lt] at hc
  have hpi := Real.pi_lt_d4
  have hsq : Real.sqrt (2 * Real.pi) < 2506632 / 1000000 := by
    rw [Real.sqrt_lt' (by norm_num)]
    norm_num
    linarith
  have h3 : (Phi (196 / 100) - 1 / 2) * Real.sqrt (2 * Real.pi) ≤ (475 / 1000) * Real.sqrt (2 * Real.pi) :=
    mul_le_mul_of_nonneg_right (by linarith) (Real.sqrt_nonneg _)
  linarith

theorem phi_196_upper : Phi (196 / 100) < (97501 / 100000 : ℝ) := by
  have h1 := (gauss_int 8 (196 / 100) (by norm_num)).2
  rw [← phi_int _ (by norm_num)] at h1
  have h2 : altInt (2 * 8 + 1) (196 / 100) < (1190655 / 1000000 : ℝ) := by
    unfold altInt
    simp only [Finset.sum_range_succ, Finset.sum_range_zero, Nat.factorial]
    norm_num
  by_contra hc
  rw [not_lt] at hc
  have hpi := Real.pi_gt_d6
  have hsq : (250662 / 100000 : ℝ) < Real.sqrt (2 * Real.pi) := by
    rw [Real.lt_sqrt (by norm_num)]
    norm_num
    linarith
  have h3 : (47501 / 100000) * Real.sqrt (2 * Real.pi) ≤ (Phi (196 / 100) - 1 / 2) * Real.sqrt (2 * Real.pi) :=
    mul_le_mul_of_nonneg_right (by linarith) (Real.sqrt_nonneg _)
  linarith

end Verif.Report
