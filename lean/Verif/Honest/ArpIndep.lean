import Verif.Honest.ArpSection
import Verif.Honest.FlciCover
import Mathlib.Probability.Distributions.Gaussian.HasGaussianLaw.Independence

/-!
# The statistic and the residual are independent
-/

set_option linter.unusedSectionVars false
set_option linter.unusedSimpArgs false

namespace Verif.Honest

open MeasureTheory ProbabilityTheory Finset

/-- A vector of `n` numbers as a sequence. -/
noncomputable def extV (n : ℕ) (v : Fin n → ℝ) (j : ℕ) : ℝ := if h : j < n then v ⟨j, h⟩ else 0

theorem dot_extV (n : ℕ) (c : ℕ → ℝ) (v : Fin n → ℝ) : dotN n c (extV n v) = ∑ j : Fin n, c j * v j := by
  unfold dotN
  rw [Finset.sum_range]
  exact sum_congr rfl fun j _ => by simp [extV]

theorem dot_meas (n : ℕ) (c : ℕ → ℝ) : Measurable fun v : Fin n → ℝ => dotN n c (extV n v) := by
  simp only [dot_extV]
  fun_prop

/-- The joint law of `n` coefficients is normal with mean `beta` and covariance `sigma`. -/
def CoefLaw (n : ℕ) (ν : Measure (Fin n → ℝ)) (beta : ℕ → ℝ) (sigma : ℕ → ℕ → ℝ) : Prop :=
  ∀ c : ℕ → ℝ, ν.map (fun v => dotN n c (extV n v)) = gaussianReal (dotN n c beta) (quadForm n c sigma).toNNReal

theorem coefLaw_prob (n : ℕ) (ν : Measure (Fin n → ℝ)) (beta : ℕ → ℝ) (sigma : ℕ → ℕ → ℝ) (h : CoefLaw n ν beta sigma) :
    IsProbabilityMeasure ν := by
  have h1 : IsProbabilityMeasure (ν.map fun v => dotN n (fun _ => 0) (extV n v)) := by rw [h]; infer_instance
  constructor
  have := h1.measure_univ
  rwa [Measure.map_apply (dot_meas n _) MeasurableSet.univ, Set.preimage_univ] at this

theorem coefLaw_gaussian (n : ℕ) (ν : Measure (Fin n → ℝ)) (beta : ℕ → ℝ) (sigma : ℕ → ℕ → ℝ) (h : CoefLaw n ν beta sigma) :
    IsGaussian ν := by
  refine isGaussian_of_map_eq_gaussianReal fun L => ?_
  set c : ℕ → ℝ := fun j => if hj : j < n then L (Pi.single ⟨j, hj⟩ 1) else 0 with hc
  refine ⟨dotN n c beta, (quadForm n c sigma).toNNReal, ?_⟩
  · have e : (L : (Fin n → ℝ) → ℝ) = fun v => dotN n c (extV n v) := by
      funext v
      rw [dot_extV]
      have hv : v = ∑ j : Fin n, v j • (Pi.single j (1 : ℝ) : Fin n → ℝ) := by
        funext k
        simp [Finset.sum_apply, Pi.single_apply]
      conv_lhs => rw [hv]
      rw [map_sum]
      refine sum_congr rfl fun j _ => ?_
      rw [map_smul, smul_eq_mul, mul_comm]
      congr 1
      simp [hc]
    rw [e]
    exact h c

theorem coefLaw_var (n : ℕ) (ν : Measure (Fin n → ℝ)) (beta : ℕ → ℝ) (sigma : ℕ → ℕ → ℝ) (h : CoefLaw n ν beta sigma)
    (hpsd : ∀ c, 0 ≤ quadForm n c sigma) (c : ℕ → ℝ) : Var[fun v => dotN n c (extV n v); ν] = quadForm n c sigma := by
  have h1 : Var[id; ν.map fun v => dotN n c (extV n v)] = quadForm n c sigma := by
    rw [h c, variance_id_gaussianReal, Real.coe_toNNReal _ (hpsd c)]
  rwa [variance_map (by fun_prop) (dot_meas n c).aemeasurable] at h1

theorem coefLaw_memLp (n : ℕ) (ν : Measure (Fin n → ℝ)) (beta : ℕ → ℝ) (sigma : ℕ → ℕ → ℝ) (h : CoefLaw n ν beta sigma)
    (c : ℕ → ℝ) : MemLp (fun v => dotN n c (extV n v)) 2 ν := by
  have h1 : MemLp id 2 (ν.map fun v => dotN n c (extV n v)) := by
    rw [h c]
    exact memLp_id_gaussianReal' 2 (by simp)
  exact (memLp_map_measure_iff (by fun_prop) (dot_meas n c).aemeasurable).1 h1

/-- `a' sigma b`. -/
def bilin (n : ℕ) (a b : ℕ → ℝ) (sigma : ℕ → ℕ → ℝ) : ℝ := ∑ i ∈ range n, ∑ j ∈ range n, a i * sigma i j * b j

theorem quad_add (n : ℕ) (a b : ℕ → ℝ) (sigma : ℕ → ℕ → ℝ) (hs : ∀ i < n, ∀ j < n, sigma i j = sigma j i) :
    quadForm n (fun j => a j + b j) sigma = quadForm n a sigma + quadForm n b sigma + 2 * bilin n a b sigma := by
  have h1 : quadForm n (fun j => a j + b j) sigma =
      quadForm n a sigma + quadForm n b sigma + (bilin n a b sigma + bilin n b a sigma) := by
    unfold quadForm bilin
    simp only [← sum_add_distrib]
    exact sum_congr rfl fun i _ => sum_congr rfl fun j _ => by ring
  have h2 : bilin n b a sigma = bilin n a b sigma := by
    unfold bilin
    rw [sum_comm]
    exact sum_congr rfl fun i hi => sum_congr rfl fun j hj => by
      rw [hs j (mem_range.1 hj) i (mem_range.1 hi)]
      ring
  rw [h1, h2]
  ring

theorem coefLaw_cov (n : ℕ) (ν : Measure (Fin n → ℝ)) (beta : ℕ → ℝ) (sigma : ℕ → ℕ → ℝ) (h : CoefLaw n ν beta sigma)
    (hpsd : ∀ c, 0 ≤ quadForm n c sigma) (hs : ∀ i < n, ∀ j < n, sigma i j = sigma j i) (a b : ℕ → ℝ) :
    cov[fun v => dotN n a (extV n v), fun v => dotN n b (extV n v); ν] = bilin n a b sigma := by
  have := coefLaw_prob n ν beta sigma h
  have h1 := variance_fun_add (coefLaw_memLp n ν beta sigma h a) (coefLaw_memLp n ν beta sigma h b)
  have e : (fun v : Fin n → ℝ => dotN n a (extV n v) + dotN n b (extV n v)) = fun v => dotN n (fun j => a j + b j) (extV n v) := by
    funext v
    unfold dotN
    rw [← sum_add_distrib]
    exact sum_congr rfl fun j _ => by ring
  rw [e, coefLaw_var n ν beta sigma h hpsd, coefLaw_var n ν beta sigma h hpsd, coefLaw_var n ν beta sigma h hpsd,
    quad_add n a b sigma hs] at h1
  linarith

/-- Coefficients of the residual of position `j` in the data. -/
noncomputable def resCoef (n : ℕ) (sigma : ℕ → ℕ → ℝ) (g : ℕ → ℝ) (j k : ℕ) : ℝ :=
  (if k = j then 1 else 0) - sigmaEta n g sigma j / etaSigmaEta n g sigma * g k

theorem residual_dot (n : ℕ) (sigma : ℕ → ℕ → ℝ) (g y : ℕ → ℝ) (j : ℕ) (hj : j < n) :
    residual n sigma g y j = dotN n (resCoef n sigma g j) y := by
  unfold residual resCoef dotN
  have h1 : ∀ k, ((if k = j then (1 : ℝ) else 0) - sigmaEta n g sigma j / etaSigmaEta n g sigma * g k) * y k =
      (if k = j then y k else 0) - sigmaEta n g sigma j / etaSigmaEta n g sigma * (g k * y k) := by
    intro k
    split_ifs <;> ring
  simp only [h1, sum_sub_distrib, ← mul_sum]
  rw [sum_ite_eq' (range n) j y, if_pos (mem_range.2 hj)]

theorem etaSigmaEta_quad (n : ℕ) (g : ℕ → ℝ) (sigma : ℕ → ℕ → ℝ) : etaSigmaEta n g sigma = quadForm n g sigma := by
  unfold etaSigmaEta sigmaEta quadForm
  refine sum_congr rfl fun i _ => ?_
  rw [mul_sum]
  exact sum_congr rfl fun j _ => by ring

theorem res_uncorrelated (n : ℕ) (sigma : ℕ → ℕ → ℝ) (g : ℕ → ℝ) (hs : ∀ i < n, ∀ j < n, sigma i j = sigma j i)
    (hv : etaSigmaEta n g sigma ≠ 0) (j : ℕ) (hj : j < n) : bilin n g (resCoef n sigma g j) sigma = 0 := by
  rw [← C156_uncorrelated n sigma g hs hv j hj]
  unfold bilin
  refine sum_congr rfl fun i _ => ?_
  have : ∀ k ∈ range n, g i * sigma i k * resCoef n sigma g j k =
      g i * ((if k = j then sigma i k else 0) - sigmaEta n g sigma j / etaSigmaEta n g sigma * (sigma i k * g k)) := by
    intro k _
    unfold resCoef
    split_ifs <;> ring
  rw [sum_congr rfl this, ← mul_sum, sum_sub_distrib, ← mul_sum, sum_ite_eq' (range n) j (fun k => sigma i k),
    if_pos (mem_range.2 hj)]
  rfl

/-- The residual as a vector. -/
noncomputable def resVec (n : ℕ) (sigma : ℕ → ℕ → ℝ) (g : ℕ → ℝ) (v : Fin n → ℝ) (j : Fin n) : ℝ :=
  dotN n (resCoef n sigma g j) (extV n v)

theorem resVec_meas (n : ℕ) (sigma : ℕ → ℕ → ℝ) (g : ℕ → ℝ) : Measurable (resVec n sigma g) :=
  measurable_pi_lambda _ fun _ => dot_meas n _

/-- Statistic and residual are independent. -/
theorem stat_indep (n : ℕ) (ν : Measure (Fin n → ℝ)) (beta : ℕ → ℝ) (sigma : ℕ → ℕ → ℝ) (h : CoefLaw n ν beta sigma)
    (hpsd : ∀ c, 0 ≤ quadForm n c sigma) (hs : ∀ i < n, ∀ j < n, sigma i j = sigma j i) (g : ℕ → ℝ)
    (hv : etaSigmaEta n g sigma ≠ 0) :
    IndepFun (fun v => dotN n g (extV n v)) (resVec n sigma g) ν := by
  have hG := coefLaw_gaussian n ν beta sigma h
  have hlin : ∀ (c : ℕ → ℝ) (x y : Fin n → ℝ), dotN n c (extV n (x + y)) = dotN n c (extV n x) + dotN n c (extV n y) := by
    intro c x y
    simp only [dot_extV, Pi.add_apply, mul_add, sum_add_distrib]
  have hsm : ∀ (c : ℕ → ℝ) (r : ℝ) (x : Fin n → ℝ), dotN n c (extV n (r • x)) = r * dotN n c (extV n x) := by
    intro c r x
    simp only [dot_extV, Pi.smul_apply, smul_eq_mul, mul_sum]
    exact sum_congr rfl fun j _ => by ring
  let L : (Fin n → ℝ) →ₗ[ℝ] ((Unit → ℝ) × (Fin n → ℝ)) :=
    { toFun := fun v => (fun _ => dotN n g (extV n v), resVec n sigma g v)
      map_add' := by
        intro x y
        refine Prod.ext ?_ ?_
        · funext u; exact hlin g x y
        · funext j; exact hlin _ x y
      map_smul' := by
        intro r x
        refine Prod.ext ?_ ?_
        · funext u; exact hsm g r x
        · funext j; exact hsm _ r x }
  have hlaw : HasGaussianLaw (fun v : Fin n → ℝ => ((fun i : Unit => dotN n g (extV n v)), fun j : Fin n => resVec n sigma g v j)) ν := by
    have := (IsGaussian.hasGaussianLaw_id (μ := ν)).map_fun (LinearMap.toContinuousLinearMap L)
    exact this
  have hind := HasGaussianLaw.indepFun_of_covariance_eval (X := fun (_ : Unit) v => dotN n g (extV n v))
    (Y := fun j v => resVec n sigma g v j) hlaw (by
      intro i j
      have := coefLaw_cov n ν beta sigma h hpsd hs g (resCoef n sigma g j)
      rw [res_uncorrelated n sigma g hs hv j j.2] at this
      exact this)
  exact hind.comp (φ := fun w : Unit → ℝ => w ()) (ψ := id) (by fun_prop) measurable_id

end Verif.Honest
