import Verif.Asym.Plugin
import Mathlib.Probability.Independence.InfinitePi
import Mathlib.Probability.Distributions.Uniform
import Mathlib.Probability.ProbabilityMassFunction.Integrals

set_option linter.unusedSectionVars false
set_option linter.unusedSimpArgs false

/-!
# Independent uniform draws from a finite population: the samples of the examples
-/

namespace Verif.Asym

open MeasureTheory ProbabilityTheory Filter Topology

variable {𝓧 : Type*} [Fintype 𝓧] [Nonempty 𝓧] [MeasurableSpace 𝓧] [MeasurableSingletonClass 𝓧]

/-- One draw. -/
noncomputable def unif (𝓧 : Type*) [Fintype 𝓧] [Nonempty 𝓧] [MeasurableSpace 𝓧] : Measure 𝓧 := (PMF.uniformOfFintype 𝓧).toMeasure

instance : IsProbabilityMeasure (unif 𝓧) := by unfold unif; infer_instance

/-- A sequence of draws. -/
noncomputable def draws (𝓧 : Type*) [Fintype 𝓧] [Nonempty 𝓧] [MeasurableSpace 𝓧] : Measure (ℕ → 𝓧) := Measure.infinitePi fun _ => unif 𝓧

instance : IsProbabilityMeasure (draws 𝓧) := by unfold draws; infer_instance

/-- The `n`-th draw. -/
def draw (n : ℕ) (ω : ℕ → 𝓧) : 𝓧 := ω n

theorem draw_measurable (n : ℕ) : Measurable (draw (𝓧 := 𝓧) n) := measurable_pi_apply n

theorem draw_map (n : ℕ) : (draws 𝓧).map (draw n) = unif 𝓧 := Measure.infinitePi_map_eval (fun _ => unif 𝓧) n

theorem draws_sampling : Sampling (draws 𝓧) draw :=
  ⟨iIndepFun_infinitePi (P := fun _ => unif 𝓧) (X := fun _ z => z) fun _ => measurable_id,
    fun i => ⟨(draw_measurable i).aemeasurable, (draw_measurable 0).aemeasurable, by rw [draw_map, draw_map]⟩⟩

theorem draws_pop (f : 𝓧 → ℝ) : pop (draws 𝓧) draw f = (∑ z, f z) / Fintype.card 𝓧 := by
  unfold pop
  have h := integral_map (μ := draws 𝓧) (draw_measurable 0).aemeasurable (measurable_of_finite f).aestronglyMeasurable
  rw [← h, draw_map, unif, PMF.integral_eq_sum, Finset.sum_div]
  refine Finset.sum_congr rfl fun z _ => ?_
  simp [div_eq_inv_mul]

theorem draws_sq (f : 𝓧 → ℝ) : SqInt (draws 𝓧) draw f := by
  refine ⟨measurable_of_finite f, ?_⟩
  obtain ⟨C, hC⟩ : ∃ C, ∀ z, ‖f z‖ ≤ C := ⟨∑ z, ‖f z‖, fun z => Finset.single_le_sum (f := fun z => ‖f z‖) (fun _ _ => norm_nonneg _) (Finset.mem_univ z)⟩
  exact MemLp.of_bound ((measurable_of_finite f).comp (draw_measurable 0)).aestronglyMeasurable C (ae_of_all _ fun ω => hC _)

theorem draws_int (f : 𝓧 → ℝ) : Integrable (fun ω => f (draw 0 ω)) (draws 𝓧) := (draws_sq f).2.integrable (by norm_num)

end Verif.Asym
