import Verif.Sim.Model
import Mathlib.Probability.Distributions.Gaussian.Real
import Mathlib.Probability.Independence.Integration

set_option linter.unusedSectionVars false
set_option linter.unusedSimpArgs false

/-!
# C252: the reported covariates of the simulated data are standardised

The raw covariates are four independent standard normal draws per unit.
-/

namespace Verif.Sim

open MeasureTheory ProbabilityTheory

variable {Ω : Type*} [MeasurableSpace Ω]

/-! ## Specification -/

/-- Four independent standard normal variables, `rng.standard_normal(n)` four times, `dgp.py:89-92`. -/
structure RawCovariates (P : Measure Ω) (x : Ω → Fin 4 → ℝ) : Prop where
  law : ∀ i, HasLaw (fun ω => x ω i) (gaussianReal 0 1) P
  indep : iIndepFun (fun i ω => x ω i) P

/-! ## Lemmas -/

theorem RawCovariates.comp {P : Measure Ω} {x : Ω → Fin 4 → ℝ} (h : RawCovariates P x) (i : Fin 4) (f : ℝ → ℝ) (hf : Measurable f) :
    ∫ ω, f (x ω i) ∂P = ∫ a, f a ∂gaussianReal 0 1 := (h.law i).integral_comp hf.aestronglyMeasurable

theorem RawCovariates.int {P : Measure Ω} {x : Ω → Fin 4 → ℝ} (h : RawCovariates P x) (i : Fin 4) (f : ℝ → ℝ) (hf : Integrable f (gaussianReal 0 1)) :
    Integrable (fun ω => f (x ω i)) P := by
  rw [← (h.law i).map_eq] at hf
  exact hf.comp_aemeasurable (h.law i).aemeasurable

theorem pow_int (n : ℕ) : Integrable (fun a : ℝ => a ^ n) (gaussianReal 0 1) := by
  have := (memLp_id_gaussianReal (μ := 0) (v := 1) (n : NNReal))
  rcases Nat.eq_zero_or_pos n with rfl | hn
  · simp
  · have h2 := MemLp.integrable_norm_pow (f := (id : ℝ → ℝ)) (by simpa using this) hn.ne'
    refine h2.mono (by fun_prop) (Filter.Eventually.of_forall fun a => ?_)
    simp

theorem moment_one : ∫ a, a ^ 1 ∂gaussianReal 0 1 = 0 := by simp

theorem moment_two : ∫ a, a ^ 2 ∂gaussianReal 0 1 = 1 := by
  have h := variance_fun_id_gaussianReal (μ := 0) (v := 1)
  rw [variance_eq_integral (by fun_prop)] at h
  simpa using h

theorem moment_three : ∫ a, a ^ 3 ∂gaussianReal 0 1 = 0 := by
  have h : ∫ a, a ^ 3 ∂gaussianReal 0 1 = ∫ a, a ^ 3 ∂((gaussianReal 0 1).map fun x => -x) := by rw [gaussianReal_map_neg, neg_zero]
  rw [integral_map (by fun_prop) (by fun_prop)] at h
  have : ∀ a : ℝ, (-a) ^ 3 = -(a ^ 3) := fun a => by ring
  simp only [this, integral_neg] at h
  linarith

theorem RawCovariates.prod {P : Measure Ω} {x : Ω → Fin 4 → ℝ} (h : RawCovariates P x) {i j : Fin 4} (hij : i ≠ j) (f g : ℝ → ℝ)
    (hf : Measurable f) (hg : Measurable g) (hfi : Integrable f (gaussianReal 0 1)) (hgi : Integrable g (gaussianReal 0 1)) :
    Integrable (fun ω => f (x ω i) * g (x ω j)) P ∧
      ∫ ω, f (x ω i) * g (x ω j) ∂P = (∫ a, f a ∂gaussianReal 0 1) * ∫ a, g a ∂gaussianReal 0 1 := by
  have hi := (h.indep.indepFun hij)
  refine ⟨(hi.comp hf hg).integrable_mul (h.int i f hfi) (h.int j g hgi), ?_⟩
  rw [hi.integral_fun_comp_mul_comp (h.law i).aemeasurable (h.law j).aemeasurable hf.aestronglyMeasurable hg.aestronglyMeasurable, h.comp i f hf,
    h.comp j g hg]

theorem exp_moment (t : ℝ) : Integrable (fun a => Real.exp (t * a)) (gaussianReal 0 1) ∧ ∫ a, Real.exp (t * a) ∂gaussianReal 0 1 = Real.exp (t ^ 2 / 2) := by
  refine ⟨integrable_exp_mul_gaussianReal t, ?_⟩
  have := congrFun (mgf_id_gaussianReal (μ := 0) (v := 1)) t
  simp only [mgf, id] at this
  rw [this]
  simp

/-- Integrable with this mean. -/
structure HasMean (P : Measure Ω) (f : Ω → ℝ) (a : ℝ) : Prop where
  i : Integrable f P
  m : ∫ ω, f ω ∂P = a

theorem HasMean.add {P : Measure Ω} {f g : Ω → ℝ} {a b : ℝ} (hf : HasMean P f a) (hg : HasMean P g b) : HasMean P (fun ω => f ω + g ω) (a + b) :=
  ⟨hf.i.add hg.i, by rw [integral_add hf.i hg.i, hf.m, hg.m]⟩

theorem HasMean.mul {P : Measure Ω} {f : Ω → ℝ} {a : ℝ} (c : ℝ) (hf : HasMean P f a) : HasMean P (fun ω => c * f ω) (c * a) :=
  ⟨hf.i.const_mul c, by rw [integral_const_mul, hf.m]⟩

theorem HasMean.const (P : Measure Ω) [IsProbabilityMeasure P] (c : ℝ) : HasMean P (fun _ => c) c := ⟨integrable_const c, by simp⟩

/-! ## C252 -/

/-- **C252.**  The first reported covariate has mean zero and variance one. -/
theorem C252_first (P : Measure Ω) [IsProbabilityMeasure P] (x : Ω → Fin 4 → ℝ) (h : RawCovariates P x) :
    ∫ ω, reported (x ω) 0 ∂P = 0 ∧ ∫ ω, reported (x ω) 0 ^ 2 ∂P = 1 := by
  have e : ∀ ω, reported (x ω) 0 = (Real.exp (1 / 2 * x ω 0) - Real.exp (1 / 4 / 2)) / Real.sqrt ((Real.exp (1 / 4) - 1) * Real.exp (1 / 4)) := by
    intro ω
    simp only [reported, transform, Matrix.cons_val_zero]
    congr 3
    ring
  have i1 := h.int 0 _ (exp_moment (1 / 2)).1
  have m1 := (h.comp 0 (fun a => Real.exp (1 / 2 * a)) (by fun_prop)).trans (exp_moment (1 / 2)).2
  have i2 := h.int 0 _ (exp_moment 1).1
  have m2 := (h.comp 0 (fun a => Real.exp (1 * a)) (by fun_prop)).trans (exp_moment 1).2
  have hpos : 0 < (Real.exp (1 / 4) - 1) * Real.exp (1 / 4) := by
    have : 1 < Real.exp (1 / 4) := by rw [Real.one_lt_exp_iff]; norm_num
    exact mul_pos (by linarith) (Real.exp_pos _)
  have hc : Real.exp ((1 / 2) ^ 2 / 2) = Real.exp (1 / 4 / 2) := by norm_num
  constructor
  · simp only [e]
    rw [integral_div, integral_sub i1 (integrable_const _), m1]
    simp
    left
    rw [sub_eq_zero]
    norm_num
  · have e2 : ∀ ω, reported (x ω) 0 ^ 2 = (Real.exp (1 * x ω 0) - 2 * Real.exp (1 / 4 / 2) * Real.exp (1 / 2 * x ω 0) + Real.exp (1 / 4)) /
        ((Real.exp (1 / 4) - 1) * Real.exp (1 / 4)) := by
      intro ω
      rw [e, div_pow, Real.sq_sqrt hpos.le]
      congr 1
      have a : Real.exp (1 * x ω 0) = Real.exp (1 / 2 * x ω 0) ^ 2 := by rw [← Real.exp_nat_mul]; congr 1; push_cast; ring
      have b : Real.exp (1 / 4) = Real.exp (1 / 4 / 2) ^ 2 := by rw [← Real.exp_nat_mul]; congr 1; push_cast; ring
      rw [a, b]
      ring
    have key := ((HasMean.mul 1 ⟨i2, m2⟩).add ((HasMean.mul (-(2 * Real.exp (1 / 4 / 2))) ⟨i1, m1⟩))).add (HasMean.const P (Real.exp (1 / 4)))
    have e3 : ∀ ω, reported (x ω) 0 ^ 2 = (1 * Real.exp (1 * x ω 0) + -(2 * Real.exp (1 / 4 / 2)) * Real.exp (1 / 2 * x ω 0) + Real.exp (1 / 4)) /
        ((Real.exp (1 / 4) - 1) * Real.exp (1 / 4)) := fun ω => by rw [e2]; congr 1; ring
    simp only [e3]
    rw [integral_div, key.m, hc, div_eq_one_iff_eq hpos.ne']
    have b : Real.exp (1 / 4) = Real.exp (1 / 4 / 2) * Real.exp (1 / 4 / 2) := by rw [← Real.exp_add]; congr 1; ring
    have c : Real.exp (1 ^ 2 / 2) = Real.exp (1 / 4) * Real.exp (1 / 4) := by rw [← Real.exp_add]; congr 1; ring
    rw [c, b]
    ring

/-- **C252.**  The second reported covariate has mean zero. -/
theorem C252_second (P : Measure Ω) [IsProbabilityMeasure P] (x : Ω → Fin 4 → ℝ) (h : RawCovariates P x) : ∫ ω, reported (x ω) 1 ∂P = 0 := by
  have e : ∀ ω, reported (x ω) 1 = (1 / (1 + Real.exp (x ω 0)) * x ω 1 ^ 1) / (54164 / 100000) := by
    intro ω
    simp only [reported, transform, Matrix.cons_val_one, Matrix.cons_val_zero]
    ring
  have hb : Integrable (fun a : ℝ => 1 / (1 + Real.exp a)) (gaussianReal 0 1) := by
    refine (integrable_const (1 : ℝ)).mono (by have : Measurable fun a : ℝ => 1 / (1 + Real.exp a) := by fun_prop
                                               exact this.aestronglyMeasurable) (Filter.Eventually.of_forall fun a => ?_)
    have := Real.exp_pos a
    rw [Real.norm_of_nonneg (by positivity), norm_one, div_le_one (by positivity)]
    linarith
  simp only [e]
  rw [integral_div, (h.prod (i := 0) (j := 1) (by decide) (fun a => 1 / (1 + Real.exp a)) (fun a => a ^ 1) (by fun_prop) (by fun_prop) hb (pow_int 1)).2,
    moment_one]
  simp

/-- **C252.**  The third reported covariate has mean `1/4453`: the centring constant `0.21887` is `0.21888` rounded down. -/
theorem C252_third (P : Measure Ω) [IsProbabilityMeasure P] (x : Ω → Fin 4 → ℝ) (h : RawCovariates P x) : ∫ ω, reported (x ω) 2 ∂P = 1 / 4453 := by
  have e : ∀ ω, reported (x ω) 2 = ((1 / 15625 * (x ω 0 ^ 3 * x ω 2 ^ 3) + 18 / 6250 * (x ω 0 ^ 2 * x ω 2 ^ 2) + 108 / 2500 * (x ω 0 ^ 1 * x ω 2 ^ 1)) +
      (216 / 1000 - 21887 / 100000)) / (4453 / 100000) := by
    intro ω
    simp [reported, transform]
    ring
  have p := fun n => h.prod (i := 0) (j := 2) (by decide) (fun a => a ^ n) (fun a => a ^ n) (by fun_prop) (by fun_prop) (pow_int n) (pow_int n)
  have q := fun n => (⟨(p n).1, (p n).2⟩ : HasMean P _ _)
  have key := ((((q 3).mul (1 / 15625)).add ((q 2).mul (18 / 6250))).add ((q 1).mul (108 / 2500))).add (HasMean.const P (216 / 1000 - 21887 / 100000))
  simp only [e]
  rw [integral_div, key.m, moment_one, moment_two, moment_three]
  norm_num

/-- **C252.**  The fourth reported covariate has mean zero. -/
theorem C252_fourth (P : Measure Ω) [IsProbabilityMeasure P] (x : Ω → Fin 4 → ℝ) (h : RawCovariates P x) : ∫ ω, reported (x ω) 3 ∂P = 0 := by
  have e : ∀ ω, reported (x ω) 3 = ((x ω 0 ^ 2 + x ω 3 ^ 2 + 2 * (x ω 0 ^ 1 * x ω 3 ^ 1) + 40 * x ω 0 ^ 1 + 40 * x ω 3 ^ 1) + (-2)) / (5663891 / 100000) := by
    intro ω
    simp [reported, transform]
    ring
  have p := h.prod (i := 0) (j := 3) (by decide) (fun a => a ^ 1) (fun a => a ^ 1) (by fun_prop) (by fun_prop) (pow_int 1) (pow_int 1)
  have i0 := fun n => h.int 0 _ (pow_int n)
  have i3 := fun n => h.int 3 _ (pow_int n)
  have m := fun i n => h.comp i (fun a => a ^ n) (by fun_prop)
  have q0 := fun n => (⟨i0 n, m 0 n⟩ : HasMean P _ _)
  have q3 := fun n => (⟨i3 n, m 3 n⟩ : HasMean P _ _)
  have key := (((((q0 2).add (q3 2)).add (HasMean.mul 2 ⟨p.1, p.2⟩)).add ((q0 1).mul 40)).add ((q3 1).mul 40)).add (HasMean.const P (-2))
  simp only [e]
  rw [integral_div, key.m, moment_one, moment_two]
  norm_num

/-- Independent standard normals exist. -/
theorem raw_exists : RawCovariates (Measure.pi fun _ : Fin 4 => gaussianReal 0 1) (fun ω => ω) where
  law := fun i => ⟨(measurable_pi_apply i).aemeasurable, (measurePreserving_eval (fun _ : Fin 4 => gaussianReal 0 1) i).map_eq⟩
  indep := iIndepFun_pi (X := fun _ a => a) fun _ => aemeasurable_id

example : ∫ ω, reported ω 3 ∂(Measure.pi fun _ : Fin 4 => gaussianReal 0 1) = 0 := C252_fourth _ _ raw_exists
example : ∫ ω, reported ω 2 ∂(Measure.pi fun _ : Fin 4 => gaussianReal 0 1) ≠ 0 := by rw [C252_third _ _ raw_exists]; norm_num

end Verif.Sim
