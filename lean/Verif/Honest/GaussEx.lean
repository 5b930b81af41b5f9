import Verif.Honest.FlciCover
import Mathlib.Probability.Distributions.Gaussian.HasGaussianLaw.Independence
import Mathlib.Probability.Moments.Variance

/-!
# Jointly normal coefficients exist for every covariance matrix `L L'`
-/

set_option linter.unusedSectionVars false
set_option linter.unusedSimpArgs false

namespace Verif.Honest

open MeasureTheory ProbabilityTheory Finset

/-- `k` independent standard normal variables. -/
noncomputable def stdNormals (k : ℕ) : Measure (Fin k → ℝ) := Measure.pi fun _ => gaussianReal 0 1

instance (k : ℕ) : IsProbabilityMeasure (stdNormals k) := by unfold stdNormals; infer_instance

theorem coord_law (k : ℕ) (r : Fin k) : (stdNormals k).map (fun z => z r) = gaussianReal 0 1 :=
  (measurePreserving_eval (fun _ : Fin k => gaussianReal 0 1) r).map_eq

/-- A linear combination of independent standard normal variables. -/
theorem lin_law (k : ℕ) (a : ℝ) (t : Fin k → ℝ) :
    (stdNormals k).map (fun z => a + ∑ r, t r * z r) = gaussianReal a (∑ r, t r ^ 2).toNNReal := by
  have hind : iIndepFun (fun (r : Fin k) (z : Fin k → ℝ) => t r * z r) (stdNormals k) := by
    have := iIndepFun_pi (μ := fun _ : Fin k => gaussianReal 0 1) (X := fun r x => t r * x) (fun r => by fun_prop)
    exact this
  have hg : ∀ r, HasGaussianLaw (fun z : Fin k → ℝ => t r * z r) (stdNormals k) := by
    intro r
    have h0 : HasGaussianLaw (fun z : Fin k → ℝ => z r) (stdNormals k) := by
      constructor
      rw [coord_law]
      infer_instance
    exact h0.map_fun ((t r) • ContinuousLinearMap.id ℝ ℝ)
  have hs := iIndepFun.hasGaussianLaw_fun_sum hg hind
  have h1 := hs.map_eq_gaussianReal
  have hmean : ∀ r, ∫ z, t r * z r ∂(stdNormals k) = 0 := by
    intro r
    rw [integral_const_mul]
    have : ∫ z, z r ∂(stdNormals k) = ∫ x, x ∂((stdNormals k).map fun z => z r) := by
      rw [integral_map (measurable_pi_apply r).aemeasurable (by fun_prop)]
    rw [this, coord_law, integral_id_gaussianReal, mul_zero]
  have hint : ∫ z, ∑ r, t r * z r ∂(stdNormals k) = 0 := by
    rw [integral_finsetSum _ fun r _ => (hg r).integrable]
    exact sum_eq_zero fun r _ => hmean r
  have hvar : Var[fun z => ∑ r, t r * z r; stdNormals k] = ∑ r, t r ^ 2 := by
    have hv := variance_sum_pi (μ := fun _ : Fin k => gaussianReal 0 1) (X := fun r x => t r * x)
      (fun r => (memLp_id_gaussianReal 2).const_mul (t r))
    have e : (∑ i, fun ω : Fin k → ℝ => t i * ω i) = fun z => ∑ r, t r * z r := by
      funext z
      simp
    rw [e] at hv
    rw [stdNormals, hv]
    refine sum_congr rfl fun r _ => ?_
    rw [variance_const_mul, variance_fun_id_gaussianReal]
    simp
  rw [hint, hvar] at h1
  have e2 := gaussianReal_map_const_add (μ := 0) (v := (∑ r, t r ^ 2).toNNReal) a
  rw [← h1, Measure.map_map (by fun_prop) (by fun_prop)] at e2
  rw [zero_add] at e2
  exact e2

/-- Coefficients `beta + L z`. -/
def gaussOf (k : ℕ) (beta : ℕ → ℝ) (L : ℕ → Fin k → ℝ) (z : Fin k → ℝ) (j : ℕ) : ℝ := beta j + ∑ r, L j r * z r

/-- The covariance matrix `L L'`. -/
def covOf (k : ℕ) (L : ℕ → Fin k → ℝ) (i j : ℕ) : ℝ := ∑ r, L i r * L j r

theorem covOf_quad (k n : ℕ) (L : ℕ → Fin k → ℝ) (c : ℕ → ℝ) :
    quadForm n c (covOf k L) = ∑ r, (∑ j ∈ range n, c j * L j r) ^ 2 := by
  unfold quadForm covOf
  simp only [mul_sum, sum_mul, sq]
  have : ∀ i ∈ range n, (∑ x ∈ range n, ∑ r, c i * (L i r * L x r) * c x) = ∑ r, ∑ x ∈ range n, c i * (L i r * L x r) * c x :=
    fun i _ => sum_comm
  rw [sum_congr rfl this, sum_comm]
  refine sum_congr rfl fun r _ => ?_
  rw [sum_comm]
  refine sum_congr rfl fun i _ => sum_congr rfl fun j _ => by ring

/-- Every covariance matrix `L L'` is that of jointly normal coefficients. -/
theorem gauss_exists (k n : ℕ) (beta : ℕ → ℝ) (L : ℕ → Fin k → ℝ) :
    GaussianCoefs (stdNormals k) n (gaussOf k beta L) beta (covOf k L) := by
  intro c
  have e : (fun z : Fin k → ℝ => ∑ j ∈ range n, c j * gaussOf k beta L z j) =
      fun z => (∑ j ∈ range n, c j * beta j) + ∑ r, (∑ j ∈ range n, c j * L j r) * z r := by
    funext z
    unfold gaussOf
    simp only [mul_add, sum_add_distrib, mul_sum, sum_mul]
    congr 1
    rw [sum_comm]
    exact sum_congr rfl fun r _ => sum_congr rfl fun j _ => by ring
  rw [e, covOf_quad]
  exact lin_law k _ _

/-- Chebyshev's inequality for one of the variables. -/
theorem coord_tail (k : ℕ) (r : Fin k) (c : ℝ) (hc : 0 < c) : stdNormals k {z | c ≤ |z r|} ≤ ENNReal.ofReal (1 / c ^ 2) := by
  have h1 : (stdNormals k).map (fun z => z r) {x | c ≤ |x|} = stdNormals k {z | c ≤ |z r|} :=
    Measure.map_apply (measurable_pi_apply r) (by
      have : MeasurableSet {x : ℝ | c ≤ |x|} := measurableSet_le (by fun_prop) (by fun_prop)
      exact this)
  rw [← h1, coord_law]
  have h2 := meas_ge_le_variance_div_sq (μ := gaussianReal 0 1) (X := fun x => x) (memLp_id_gaussianReal 2) hc
  rw [variance_fun_id_gaussianReal, integral_id_gaussianReal] at h2
  simpa using h2

end Verif.Honest
