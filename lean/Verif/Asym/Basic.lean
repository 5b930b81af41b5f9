import Mathlib.Probability.CentralLimitTheorem
import Mathlib.Probability.StrongLaw
import Mathlib.MeasureTheory.Measure.Portmanteau
import Verif.Honest.FoldedNormal

set_option linter.unusedSectionVars false
set_option linter.unusedSimpArgs false

/-!
# Large samples: laws of large numbers and limit distributions of plug-in estimators

Units are drawn independently from one population.  `avg X f n ω` is the mean of `f` over the first `n` units of the sample `ω`, `pop P X f` its population
mean.  Nothing here is specific to the library.
-/

namespace Verif.Asym

open MeasureTheory ProbabilityTheory Filter Topology Verif.Honest

variable {Ω 𝓧 : Type*} [MeasurableSpace Ω] [MeasurableSpace 𝓧]

/-- Units drawn independently from one population. -/
structure Sampling (P : Measure Ω) (X : ℕ → Ω → 𝓧) : Prop where
  indep : iIndepFun X P
  ident : ∀ i, IdentDistrib (X i) (X 0) P P

/-- Population mean. -/
noncomputable def pop (P : Measure Ω) (X : ℕ → Ω → 𝓧) (f : 𝓧 → ℝ) : ℝ := ∫ ω, f (X 0 ω) ∂P

/-- Sample mean of the first `n` units. -/
noncomputable def avg (X : ℕ → Ω → 𝓧) (f : 𝓧 → ℝ) (n : ℕ) (ω : Ω) : ℝ := (∑ k ∈ Finset.range n, f (X k ω)) / n

/-- `f` is measurable and has a second moment. -/
def SqInt (P : Measure Ω) (X : ℕ → Ω → 𝓧) (f : 𝓧 → ℝ) : Prop := Measurable f ∧ MemLp (fun ω => f (X 0 ω)) 2 P

section
variable {P : Measure Ω} [IsProbabilityMeasure P] {X : ℕ → Ω → 𝓧} (hX : Sampling P X)
include hX

theorem Sampling.aemeas (k : ℕ) : AEMeasurable (X k) P := (hX.ident k).aemeasurable_fst

theorem avg_aemeas {f : 𝓧 → ℝ} (hf : Measurable f) (n : ℕ) : AEMeasurable (avg X f n) P := by
  unfold avg
  exact (Finset.aemeasurable_fun_sum _ fun k _ => hf.comp_aemeasurable (hX.aemeas k)).div_const _

/-- **Law of large numbers.** -/
theorem lln {f : 𝓧 → ℝ} (hf : Measurable f) (hi : Integrable (fun ω => f (X 0 ω)) P) : ∀ᵐ ω ∂P, Tendsto (fun n => avg X f n ω) atTop (𝓝 (pop P X f)) := by
  have h := hX.indep.comp (fun _ => f) fun _ => hf
  exact strong_law_ae_real (fun k ω => f (X k ω)) hi (fun i j hij => h.indepFun hij) fun k => (hX.ident k).comp hf

theorem lln2 {f : 𝓧 → ℝ} (hf : SqInt P X f) : ∀ᵐ ω ∂P, Tendsto (fun n => avg X f n ω) atTop (𝓝 (pop P X f)) :=
  lln hX hf.1 (hf.2.integrable (by norm_num))

/-- **Central limit theorem.** -/
theorem clt {f : 𝓧 → ℝ} (hf : SqInt P X f) (h0 : pop P X f = 0) :
    TendstoInDistribution (fun (n : ℕ) ω => Real.sqrt n * avg X f n ω) atTop (id : ℝ → ℝ) (fun _ => P)
      (gaussianReal 0 (pop P X fun z => f z ^ 2).toNNReal) := by
  have h := hX.indep.comp (fun _ => f) fun _ => hf.1
  have hv : Var[fun ω => f (X 0 ω); P] = pop P X fun z => f z ^ 2 := by
    rw [variance_eq_integral hf.2.aestronglyMeasurable.aemeasurable]
    unfold pop at h0 ⊢
    rw [h0]
    simp
  have hlaw : HasLaw (id : ℝ → ℝ) (gaussianReal 0 Var[fun ω => f (X 0 ω); P].toNNReal) (gaussianReal 0 Var[fun ω => f (X 0 ω); P].toNNReal) :=
    ⟨aemeasurable_id, Measure.map_id⟩
  have := tendstoInDistribution_inv_sqrt_mul_sum_sub (X := fun k ω => f (X k ω)) hlaw hf.2 h fun k => (hX.ident k).comp hf.1
  rw [hv] at this
  refine this.congr (fun n => ae_of_all _ fun ω => ?_) (ae_of_all _ fun _ => rfl)
  have h0' : ∫ ω, f (X 0 ω) ∂P = 0 := h0
  dsimp only [avg]
  rw [h0', mul_zero, sub_zero]
  rcases Nat.eq_zero_or_pos n with rfl | hn
  · simp
  · have hn' : (0 : ℝ) < n := by exact_mod_cast hn
    have hs := Real.sqrt_pos.2 hn'
    rw [mul_div_assoc', eq_div_iff hn'.ne', inv_mul_eq_div, div_mul_eq_mul_div, div_eq_iff hs.ne']
    have hq := Real.mul_self_sqrt hn'.le
    linear_combination (-(∑ k ∈ Finset.range n, f (X k ω))) * hq

end

section
variable {Ω' : Type*} [MeasurableSpace Ω'] {P : Measure Ω} [IsProbabilityMeasure P] {Q : Measure Ω'} [IsProbabilityMeasure Q]

/-- Probabilities of sets whose boundary is negligible converge. -/
theorem prob_tendsto {T : ℕ → Ω → ℝ} {Z : Ω' → ℝ} (h : TendstoInDistribution T atTop Z (fun _ => P) Q) (A : Set ℝ) (hA : MeasurableSet A)
    (hf : Q (Z ⁻¹' frontier A) = 0) : Tendsto (fun n => P.real (T n ⁻¹' A)) atTop (𝓝 (Q.real (Z ⁻¹' A))) := by
  have hZ := h.aemeasurable_limit
  have hf' : (Q.map Z) (frontier A) = 0 := by rw [Measure.map_apply_of_aemeasurable hZ isClosed_frontier.measurableSet]; exact hf
  have := ProbabilityMeasure.tendsto_measure_of_null_frontier_of_tendsto' h.tendsto (E := A) (by simpa using hf')
  have h2 := (ENNReal.tendsto_toReal (by
    rw [ProbabilityMeasure.coe_mk]; exact (measure_lt_top _ _).ne)).comp this
  simp only [ProbabilityMeasure.coe_mk] at h2
  rw [Measure.map_apply_of_aemeasurable hZ hA] at h2
  refine h2.congr fun n => ?_
  simp only [Function.comp]
  rw [Measure.map_apply_of_aemeasurable (h.forall_aemeasurable n) hA]
  rfl

/-- A limit in distribution that is constant is a limit in probability. -/
theorem inMeasure_of_const {T : ℕ → Ω → ℝ} (h : TendstoInDistribution T atTop (fun _ : Ω' => (0 : ℝ)) (fun _ => P) Q) :
    TendstoInMeasure P T atTop fun _ => 0 := by
  rw [tendstoInMeasure_iff_measureReal_norm]
  intro ε hε
  have hc : (0 : ℝ) ∉ frontier {x : ℝ | ε ≤ ‖x‖} := by
    intro hm
    have hcl : IsClosed {x : ℝ | ε ≤ ‖x‖} := isClosed_le continuous_const continuous_norm
    have := hcl.frontier_subset hm
    simp only [Set.mem_ofPred_eq, norm_zero] at this
    linarith
  have := prob_tendsto h {x : ℝ | ε ≤ ‖x‖} (isClosed_le continuous_const continuous_norm).measurableSet (by
    rw [Set.preimage_const_of_notMem hc]; exact measure_empty)
  have hn : (0 : ℝ) ∉ {x : ℝ | ε ≤ ‖x‖} := by
    simp only [Set.mem_ofPred_eq, norm_zero, not_le]; exact hε
  rw [Set.preimage_const_of_notMem hn, measureReal_empty] at this
  simpa using this

/-- Almost sure limits are limits in probability. -/
theorem inMeasure_of_ae {c : ℕ → Ω → ℝ} {l : ℝ} (hm : ∀ n, AEMeasurable (c n) P) (h : ∀ᵐ ω ∂P, Tendsto (fun n => c n ω) atTop (𝓝 l)) :
    TendstoInMeasure P c atTop fun _ => l :=
  tendstoInMeasure_of_tendsto_ae (fun n => (hm n).aestronglyMeasurable) h

/-- A factor that tends to zero times a factor that converges in distribution. -/
theorem mul_small {T : ℕ → Ω → ℝ} {Z : Ω' → ℝ} (h : TendstoInDistribution T atTop Z (fun _ => P) Q) {c : ℕ → Ω → ℝ} (hm : ∀ n, AEMeasurable (c n) P)
    (hc : ∀ᵐ ω ∂P, Tendsto (fun n => c n ω) atTop (𝓝 0)) : TendstoInMeasure P (fun n ω => c n ω * T n ω) atTop fun _ => 0 := by
  have := h.continuous_comp_prodMk_of_tendstoInMeasure_const (g := fun p : ℝ × ℝ => p.2 * p.1) (by fun_prop) (inMeasure_of_ae hm hc) hm
  refine inMeasure_of_const (Q := Q) ?_
  refine this.congr (fun n => ae_of_all _ fun ω => rfl) (ae_of_all _ fun ω => ?_)
  simp

theorem sum_small {J : Type*} (s : Finset J) (R : J → ℕ → Ω → ℝ) (h : ∀ j ∈ s, TendstoInMeasure P (R j) atTop fun _ => 0) :
    TendstoInMeasure P (fun n ω => ∑ j ∈ s, R j n ω) atTop fun _ => 0 := by
  classical
  induction s using Finset.induction_on with
  | empty =>
    simp only [Finset.sum_empty]
    intro ε hε
    simp [hε.ne', not_le.2 hε]
  | insert a s ha ih =>
    simp only [Finset.sum_insert ha]
    have h1 := tendstoInMeasure_iff_measureReal_norm.1 (h a (Finset.mem_insert_self _ _))
    have h2 := tendstoInMeasure_iff_measureReal_norm.1 (ih fun j hj => h j (Finset.mem_insert_of_mem hj))
    rw [tendstoInMeasure_iff_measureReal_norm]
    intro ε hε
    have h3 := (h1 (ε / 2) (half_pos hε)).add (h2 (ε / 2) (half_pos hε))
    rw [add_zero] at h3
    refine squeeze_zero (fun n => measureReal_nonneg) (fun n => ?_) h3
    refine (measureReal_mono (μ := P) ?_).trans (measureReal_union_le _ _)
    intro ω hω
    simp only [sub_zero, Set.mem_ofPred_eq, Set.mem_union] at hω ⊢
    by_contra hno
    push Not at hno
    have := norm_add_le (R a n ω) (∑ j ∈ s, R j n ω)
    linarith [hno.1, hno.2]

end

section
variable {P : Measure Ω} [IsProbabilityMeasure P] {X : ℕ → Ω → 𝓧} (hX : Sampling P X) {J : Type*} [Fintype J]
include hX

/-- **Linear combinations with estimated coefficients.**  If the coefficients converge, the combination of centred sample means has the limit
distribution of the combination with the limit coefficients. -/
theorem combination (u : J → 𝓧 → ℝ) (hu : ∀ j, SqInt P X (u j)) (h0 : ∀ j, pop P X (u j) = 0) (a : ℕ → Ω → J → ℝ) (a' : J → ℝ)
    (hm : ∀ n j, AEMeasurable (fun ω => a n ω j) P) (ha : ∀ᵐ ω ∂P, ∀ j, Tendsto (fun n => a n ω j) atTop (𝓝 (a' j))) :
    TendstoInDistribution (fun (n : ℕ) ω => Real.sqrt n * ∑ j, a n ω j * avg X (u j) n ω) atTop (id : ℝ → ℝ) (fun _ => P)
      (gaussianReal 0 (pop P X fun z => (∑ j, a' j * u j z) ^ 2).toNNReal) := by
  have hψ : SqInt P X fun z => ∑ j, a' j * u j z :=
    ⟨Finset.measurable_fun_sum _ fun j _ => (hu j).1.const_mul _, memLp_finsetSum _ fun j _ => (hu j).2.const_mul _⟩
  have hψ0 : pop P X (fun z => ∑ j, a' j * u j z) = 0 := by
    unfold pop
    rw [integral_finsetSum _ fun j _ => ((hu j).2.integrable (by norm_num)).const_mul _]
    refine Finset.sum_eq_zero fun j _ => ?_
    rw [integral_const_mul, show ∫ ω, u j (X 0 ω) ∂P = 0 from h0 j, mul_zero]
  have hS := clt hX hψ hψ0
  have hav : ∀ n ω, avg X (fun z => ∑ j, a' j * u j z) n ω = ∑ j, a' j * avg X (u j) n ω := by
    intro n ω
    unfold avg
    rw [Finset.sum_comm, Finset.sum_div]
    exact Finset.sum_congr rfl fun j _ => by rw [← Finset.mul_sum, mul_div_assoc]
  have hR := sum_small Finset.univ (fun j n ω => (a n ω j - a' j) * (Real.sqrt n * avg X (u j) n ω)) fun j _ =>
    mul_small (clt hX (hu j) (h0 j)) (fun n => (hm n j).sub_const _) (by
      filter_upwards [ha] with ω hω
      have := (hω j).sub_const (a' j)
      rwa [sub_self] at this)
  refine tendstoInDistribution_of_tendstoInMeasure_sub _ _ hS ?_ fun n =>
    (Finset.aemeasurable_fun_sum _ fun j _ => (hm n j).mul (avg_aemeas hX (hu j).1 n)).const_mul _
  refine hR.congr (fun n => ae_of_all _ fun ω => ?_) (ae_of_all _ fun _ => rfl)
  simp only [Pi.sub_apply, hav]
  rw [← mul_sub, ← Finset.sum_sub_distrib, Finset.mul_sum]
  exact Finset.sum_congr rfl fun j _ => by ring

/-- **Empirical moments of functions with estimated coefficients.** -/
theorem moments (f : J → 𝓧 → ℝ) (hf : ∀ j, SqInt P X (f j)) (c : ℕ → Ω → J → ℝ) (c' : J → ℝ)
    (hc : ∀ᵐ ω ∂P, ∀ j, Tendsto (fun n => c n ω j) atTop (𝓝 (c' j))) :
    ∀ᵐ ω ∂P, Tendsto (fun n => (∑ k ∈ Finset.range n, (∑ j, c n ω j * f j (X k ω)) ^ 2) / n) atTop (𝓝 (pop P X fun z => (∑ j, c' j * f j z) ^ 2)) ∧
      Tendsto (fun n => (∑ k ∈ Finset.range n, ∑ j, c n ω j * f j (X k ω)) / n) atTop (𝓝 (pop P X fun z => ∑ j, c' j * f j z)) := by
  have hint : ∀ i j, Integrable (fun ω => f i (X 0 ω) * f j (X 0 ω)) P := fun i j => (hf i).2.integrable_mul (hf j).2
  have h1 : ∀ᵐ ω ∂P, ∀ j, Tendsto (fun n => avg X (f j) n ω) atTop (𝓝 (pop P X (f j))) := ae_all_iff.2 fun j => lln2 hX (hf j)
  have h2 : ∀ᵐ ω ∂P, ∀ i j, Tendsto (fun n => avg X (fun z => f i z * f j z) n ω) atTop (𝓝 (pop P X fun z => f i z * f j z)) :=
    ae_all_iff.2 fun i => ae_all_iff.2 fun j => lln hX ((hf i).1.mul (hf j).1) (hint i j)
  filter_upwards [hc, h1, h2] with ω hc h1 h2
  constructor
  · have e : ∀ n, (∑ k ∈ Finset.range n, (∑ j, c n ω j * f j (X k ω)) ^ 2) / n = ∑ i, ∑ j, c n ω i * c n ω j * avg X (fun z => f i z * f j z) n ω := by
      intro n
      have : ∀ k, (∑ j, c n ω j * f j (X k ω)) ^ 2 = ∑ i, ∑ j, c n ω i * c n ω j * (f i (X k ω) * f j (X k ω)) := by
        intro k
        rw [sq, Finset.sum_mul_sum]
        exact Finset.sum_congr rfl fun i _ => Finset.sum_congr rfl fun j _ => by ring
      rw [Finset.sum_congr rfl fun k _ => this k, Finset.sum_comm, Finset.sum_div]
      refine Finset.sum_congr rfl fun i _ => ?_
      rw [Finset.sum_comm, Finset.sum_div]
      refine Finset.sum_congr rfl fun j _ => ?_
      rw [← Finset.mul_sum, mul_div_assoc]
      rfl
    have e' : pop P X (fun z => (∑ j, c' j * f j z) ^ 2) = ∑ i, ∑ j, c' i * c' j * pop P X fun z => f i z * f j z := by
      unfold pop
      have : ∀ ω, (∑ j, c' j * f j (X 0 ω)) ^ 2 = ∑ i, ∑ j, c' i * c' j * (f i (X 0 ω) * f j (X 0 ω)) := by
        intro ω
        rw [sq, Finset.sum_mul_sum]
        exact Finset.sum_congr rfl fun i _ => Finset.sum_congr rfl fun j _ => by ring
      simp only [this]
      rw [integral_finsetSum _ fun i _ => integrable_finsetSum _ fun j _ => (hint i j).const_mul _]
      refine Finset.sum_congr rfl fun i _ => ?_
      rw [integral_finsetSum _ fun j _ => (hint i j).const_mul _]
      exact Finset.sum_congr rfl fun j _ => integral_const_mul _ _
    simp only [e, e']
    exact tendsto_finsetSum _ fun i _ => tendsto_finsetSum _ fun j _ => ((hc i).mul (hc j)).mul (h2 i j)
  · have e : ∀ n, (∑ k ∈ Finset.range n, ∑ j, c n ω j * f j (X k ω)) / n = ∑ j, c n ω j * avg X (f j) n ω := by
      intro n
      rw [Finset.sum_comm, Finset.sum_div]
      exact Finset.sum_congr rfl fun j _ => by rw [← Finset.mul_sum, mul_div_assoc]; rfl
    have e' : pop P X (fun z => ∑ j, c' j * f j z) = ∑ j, c' j * pop P X (f j) := by
      unfold pop
      rw [integral_finsetSum _ fun j _ => ((hf j).2.integrable (by norm_num)).const_mul _]
      exact Finset.sum_congr rfl fun j _ => integral_const_mul _ _
    simp only [e, e']
    exact tendsto_finsetSum _ fun j _ => (hc j).mul (h1 j)

end

section
variable {P : Measure Ω} [IsProbabilityMeasure P]

/-- **Coverage.**  If `√n (est - θ)` is asymptotically normal with variance `σ²` and `√n se` tends to `σ`, the interval `est ± z se` covers `θ` with
probability tending to that of `[-z, z]` under the standard normal distribution. -/
theorem coverage_limit (est se : ℕ → Ω → ℝ) (θ σ z : ℝ) (hσ : 0 < σ) (hz : 0 ≤ z)
    (hT : TendstoInDistribution (fun (n : ℕ) ω => Real.sqrt n * (est n ω - θ)) atTop (id : ℝ → ℝ) (fun _ => P) (gaussianReal 0 (σ ^ 2).toNNReal))
    (hm : ∀ n, AEMeasurable (se n) P) (hs : ∀ᵐ ω ∂P, Tendsto (fun n : ℕ => Real.sqrt n * se n ω) atTop (𝓝 σ)) :
    Tendsto (fun n => P.real {ω | est n ω - z * se n ω ≤ θ ∧ θ ≤ est n ω + z * se n ω}) atTop (𝓝 (Phi z - Phi (-z))) := by
  have h := hT.continuous_comp_prodMk_of_tendstoInMeasure_const (g := fun p : ℝ × ℝ => |p.1| - z * p.2) (by fun_prop)
    (inMeasure_of_ae (fun n => (hm n).const_mul _) hs) (fun n => (hm n).const_mul _)
  have hv : (σ ^ 2).toNNReal ≠ 0 := by
    rw [Ne, Real.toNNReal_eq_zero, not_le]
    positivity
  have hna : NullSingletonClass (gaussianReal 0 (σ ^ 2).toNNReal) := nullSingletonClass_gaussianReal hv
  have hp := prob_tendsto h (Set.Iic 0) measurableSet_Iic (by
    rw [frontier_Iic]
    refine measure_mono_null (t := {z * σ, -(z * σ)}) ?_ ((Set.toFinite _).measure_zero _)
    intro t ht
    simp only [Set.mem_preimage, Set.mem_singleton_iff, id] at ht
    have : |t| = z * σ := by linarith
    rcases abs_choice t with h' | h' <;> rw [h'] at this
    · exact .inl this
    · exact .inr (by simp; linarith))
  have hlim : (gaussianReal 0 (σ ^ 2).toNNReal).real ((fun ω : ℝ => |id ω| - z * σ) ⁻¹' Set.Iic 0) = Phi z - Phi (-z) := by
    have e : ((fun ω : ℝ => |id ω| - z * σ) ⁻¹' Set.Iic 0) = Set.Icc (-(z * σ)) (z * σ) := by
      ext t
      simp only [Set.mem_preimage, Set.mem_Iic, id, sub_nonpos, abs_le, Set.mem_Icc]
    rw [e]
    have := absNormal_eq 0 σ (z * σ) hσ (by positivity)
    unfold absNormal foldedCdf at this
    rw [this]
    simp only [sub_zero]
    rw [mul_div_assoc, div_self hσ.ne', mul_one, ← neg_mul, mul_div_assoc, div_self hσ.ne', mul_one]
  rw [hlim] at hp
  refine hp.congr' ?_
  filter_upwards [eventually_gt_atTop 0] with n hn
  congr 1
  ext ω
  have hsq : 0 < Real.sqrt n := Real.sqrt_pos.2 (by exact_mod_cast hn)
  simp only [Set.mem_preimage, Set.mem_Iic, Set.mem_ofPred_eq, sub_nonpos]
  rw [abs_mul, abs_of_pos hsq, show z * (Real.sqrt n * se n ω) = Real.sqrt n * (z * se n ω) by ring, mul_le_mul_iff_right₀ hsq, abs_le]
  constructor
  · rintro ⟨a, b⟩
    exact ⟨by linarith, by linarith⟩
  · rintro ⟨a, b⟩
    exact ⟨by linarith, by linarith⟩

/-- Events that almost surely eventually happen have probability tending to one. -/
theorem prob_one (G : ℕ → Set Ω) (hG : ∀ n, NullMeasurableSet (G n) P) (h : ∀ᵐ ω ∂P, ∀ᶠ n in atTop, ω ∈ G n) :
    Tendsto (fun n => P.real (G n)ᶜ) atTop (𝓝 0) := by
  have hc : ∀ n, P.real (G n)ᶜ = ∫ ω, (toMeasurable P (G n)ᶜ).indicator (fun _ => (1 : ℝ)) ω ∂P := by
    intro n
    rw [integral_indicator_const _ (measurableSet_toMeasurable _ _)]
    simp [Measure.real, measure_toMeasurable]
  have hae : ∀ᵐ ω ∂P, ∀ n, ω ∈ toMeasurable P (G n)ᶜ ↔ ω ∈ (G n)ᶜ := by
    refine ae_all_iff.2 fun n => ?_
    have := (hG n).compl.toMeasurable_ae_eq
    filter_upwards [this] with ω hω
    exact eq_iff_iff.1 hω
  simp only [hc]
  have := tendsto_integral_of_dominated_convergence (μ := P) (F := fun n ω => (toMeasurable P (G n)ᶜ).indicator (fun _ => (1 : ℝ)) ω) (f := fun _ => 0)
    (fun _ => 1) (fun n => (measurable_const.indicator (measurableSet_toMeasurable _ _)).aestronglyMeasurable) (integrable_const _)
    (fun n => ae_of_all _ fun ω => by
      by_cases hm : ω ∈ toMeasurable P (G n)ᶜ <;> simp [hm])
    (by
      filter_upwards [h, hae] with ω hω ha
      refine tendsto_const_nhds.congr' ?_
      filter_upwards [hω] with n hn
      rw [Set.indicator_of_notMem]
      rw [ha n]
      exact fun h => h hn)
  simpa using this

/-- Events that agree on events of probability tending to one. -/
theorem prob_agree (A B G : ℕ → Set Ω) (hG : ∀ n, NullMeasurableSet (G n) P) (h : ∀ᵐ ω ∂P, ∀ᶠ n in atTop, ω ∈ G n)
    (hAB : ∀ n, ∀ ω ∈ G n, ω ∈ A n ↔ ω ∈ B n) (l : ℝ) (hB : Tendsto (fun n => P.real (B n)) atTop (𝓝 l)) :
    Tendsto (fun n => P.real (A n)) atTop (𝓝 l) := by
  have hz := prob_one G hG h
  have hd : ∀ n, |P.real (A n) - P.real (B n)| ≤ P.real (G n)ᶜ := by
    intro n
    have h1 : P.real (A n) ≤ P.real (B n) + P.real (G n)ᶜ := by
      refine (measureReal_mono (μ := P) (s₂ := B n ∪ (G n)ᶜ) ?_).trans (measureReal_union_le _ _)
      intro ω hω
      by_cases hg : ω ∈ G n
      · exact .inl ((hAB n ω hg).1 hω)
      · exact .inr hg
    have h2 : P.real (B n) ≤ P.real (A n) + P.real (G n)ᶜ := by
      refine (measureReal_mono (μ := P) (s₂ := A n ∪ (G n)ᶜ) ?_).trans (measureReal_union_le _ _)
      intro ω hω
      by_cases hg : ω ∈ G n
      · exact .inl ((hAB n ω hg).2 hω)
      · exact .inr hg
    rw [abs_le]
    constructor <;> linarith
  have h0 := squeeze_zero_norm (fun n => by rw [Real.norm_eq_abs]; exact hd n) hz
  have := h0.add hB
  simpa using this

end

end Verif.Asym
