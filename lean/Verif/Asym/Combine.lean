import Verif.Asym.Cell

set_option linter.unusedSectionVars false
set_option linter.unusedSimpArgs false

/-!
# Large samples: combining estimators with estimated weights
-/

namespace Verif.Asym

open MeasureTheory ProbabilityTheory Filter Topology Verif.Honest Verif.DR

variable {Ω 𝓧 κ : Type*} [MeasurableSpace Ω] [MeasurableSpace 𝓧]

/-- Estimated weight: own sample mean over the sum of the sample means. -/
noncomputable def ewt {K : Type*} [Fintype K] (X : ℕ → Ω → 𝓧) (e : K → 𝓧 → ℝ) (n : ℕ) (ω : Ω) (k : K) : ℝ := avg X (e k) n ω / ∑ j, avg X (e j) n ω

/-- Its limit. -/
noncomputable def pwt {K : Type*} [Fintype K] (P : Measure Ω) (X : ℕ → Ω → 𝓧) (e : K → 𝓧 → ℝ) (k : K) : ℝ := pop P X (e k) / ∑ j, pop P X (e j)

section
variable {P : Measure Ω} [IsProbabilityMeasure P] {X : ℕ → Ω → 𝓧} (hX : Sampling P X) {K : Type*} [Fintype K] {J L : K → Type*} [∀ k, Fintype (J k)] [∀ k, Fintype (L k)]
  {est : K → ℕ → Ω → ℝ} {inf : K → (n : ℕ) → Ω → Fin n → ℝ} {θ : K → ℝ} {G : K → ℕ → Set Ω} {u : (k : K) → J k → 𝓧 → ℝ} {a : (k : K) → ℕ → Ω → J k → ℝ} {a' : (k : K) → J k → ℝ}
  {f : (k : K) → L k → 𝓧 → ℝ} {c : (k : K) → ℕ → Ω → L k → ℝ} {c' : (k : K) → L k → ℝ} (hp : ∀ k, Plugin P X (est k) (inf k) (θ k) (G k) (u k) (a k) (a' k) (f k) (c k) (c' k))
include hX hp

/-- A combination with fixed weights. -/
theorem Plugin.fixed (s : K → ℝ) : Plugin P X (fun n ω => ∑ k, s k * est k n ω) (fun n ω i => ∑ k, s k * inf k n ω i) (∑ k, s k * θ k) (fun n => ⋂ k, G k n)
    (fun p : (k : K) × J k => u p.1 p.2) (fun n ω p => s p.1 * a p.1 n ω p.2) (fun p => s p.1 * a' p.1 p.2)
    (fun p : (k : K) × L k => f p.1 p.2) (fun n ω p => s p.1 * c p.1 n ω p.2) (fun p => s p.1 * c' p.1 p.2) := by
  refine ⟨fun p => (hp p.1).u2 p.2, fun p => (hp p.1).u0 p.2, fun n p => ((hp p.1).am n p.2).const_mul _, ?_, fun p => (hp p.1).f2 p.2,
    fun n p => ((hp p.1).cm n p.2).const_mul _, ?_, fun z => ?_, fun n => NullMeasurableSet.iInter fun k => (hp k).Gm n, ?_, fun n ω hω => ?_, fun n ω hω i => ?_⟩
  · filter_upwards [ae_all_iff.2 fun k => (hp k).alim] with ω h p
    exact (h p.1 p.2).const_mul _
  · filter_upwards [ae_all_iff.2 fun k => (hp k).clim] with ω h p
    exact (h p.1 p.2).const_mul _
  · rw [Fintype.sum_sigma, Fintype.sum_sigma]
    refine Finset.sum_congr rfl fun k _ => ?_
    simp only [mul_assoc]
    rw [← Finset.mul_sum, ← Finset.mul_sum, (hp k).same]
  · filter_upwards [ae_all_iff.2 fun k => (hp k).Gev] with ω h
    filter_upwards [eventually_all.2 h] with n hn
    exact Set.mem_iInter.2 hn
  · rw [← Finset.sum_sub_distrib, Fintype.sum_sigma]
    refine Finset.sum_congr rfl fun k _ => ?_
    rw [← mul_sub, (hp k).est_eq n ω (Set.mem_iInter.1 hω k), Finset.mul_sum]
    simp only [mul_assoc]
  · rw [Fintype.sum_sigma]
    refine Finset.sum_congr rfl fun k _ => ?_
    rw [(hp k).inf_eq n ω (Set.mem_iInter.1 hω k), Finset.mul_sum]
    simp only [mul_assoc]

/-- The estimates as measurable functions. -/
noncomputable def estM (X : ℕ → Ω → 𝓧) (θ : K → ℝ) (u : (k : K) → J k → 𝓧 → ℝ) (a : (k : K) → ℕ → Ω → J k → ℝ) (k : K) (n : ℕ) (ω : Ω) : ℝ :=
  θ k + ∑ j, a k n ω j * avg X (u k j) n ω

/-- A combination with estimated weights: the influence function gets the influence of the weights, `compute_aggte.py:720-833`. -/
theorem Plugin.weighted (e : K → 𝓧 → ℝ) (he : ∀ k, SqInt P X (e k)) (hS : ∑ k, pop P X (e k) ≠ 0) :
    Plugin P X (fun n ω => ∑ k, ewt X e n ω k * est k n ω)
      (fun n ω i => ∑ k, ewt X e n ω k * inf k n ω i +
        ∑ k, (e k (X i ω) / ∑ j, avg X (e j) n ω - avg X (e k) n ω * (∑ j, e j (X i ω)) / (∑ j, avg X (e j) n ω) ^ 2) * est k n ω)
      (∑ k, pwt P X e k * θ k) (fun n => (⋂ k, G k n) ∩ {ω | ∑ j, avg X (e j) n ω ≠ 0})
      (Sum.elim (fun p : (k : K) × J k => u p.1 p.2) fun k z => e k z - pwt P X e k * ∑ j, e j z)
      (fun n ω => Sum.elim (fun p => ewt X e n ω p.1 * a p.1 n ω p.2) fun k => θ k / ∑ j, avg X (e j) n ω)
      (Sum.elim (fun p => pwt P X e p.1 * a' p.1 p.2) fun k => θ k / ∑ j, pop P X (e j))
      (Sum.elim (fun p : (k : K) × L k => f p.1 p.2) e)
      (fun n ω => Sum.elim (fun p => ewt X e n ω p.1 * c p.1 n ω p.2) fun k => estM X θ u a k n ω / (∑ j, avg X (e j) n ω) -
        (∑ j, avg X (e j) n ω * estM X θ u a j n ω) / (∑ j, avg X (e j) n ω) ^ 2)
      (Sum.elim (fun p => pwt P X e p.1 * c' p.1 p.2) fun k => θ k / (∑ j, pop P X (e j)) - (∑ j, pop P X (e j) * θ j) / (∑ j, pop P X (e j)) ^ 2) := by
  have hm : ∀ n k, AEMeasurable (fun ω => avg X (e k) n ω) P := fun n k => avg_aemeas hX (he k).1 n
  have hmS : ∀ n, AEMeasurable (fun ω => ∑ j, avg X (e j) n ω) P := fun n => Finset.aemeasurable_fun_sum _ fun k _ => hm n k
  have hmw : ∀ n k, AEMeasurable (fun ω => ewt X e n ω k) P := fun n k => (hm n k).div (hmS n)
  have hme : ∀ n k, AEMeasurable (fun ω => estM X θ u a k n ω) P := fun n k =>
    (Finset.aemeasurable_fun_sum _ fun j _ => ((hp k).am n j).mul (avg_aemeas hX ((hp k).u2 j).1 n)).const_add _
  have hl : ∀ᵐ ω ∂P, ∀ k, Tendsto (fun n => avg X (e k) n ω) atTop (𝓝 (pop P X (e k))) := ae_all_iff.2 fun k => lln2 hX (he k)
  have hle : ∀ᵐ ω ∂P, ∀ k, Tendsto (fun n => estM X θ u a k n ω) atTop (𝓝 (θ k)) := by
    have h1 : ∀ᵐ ω ∂P, ∀ k j, Tendsto (fun n => avg X (u k j) n ω) atTop (𝓝 (pop P X (u k j))) :=
      ae_all_iff.2 fun k => ae_all_iff.2 fun j => lln2 hX ((hp k).u2 j)
    filter_upwards [h1, ae_all_iff.2 fun k => (hp k).alim] with ω h1 h2 k
    have : Tendsto (fun n => θ k + ∑ j, a k n ω j * avg X (u k j) n ω) atTop (𝓝 (θ k + ∑ j, a' k j * pop P X (u k j))) :=
      (tendsto_finsetSum _ fun j _ => (h2 k j).mul (h1 k j)).const_add _
    simp only [(hp k).u0, mul_zero, Finset.sum_const_zero, add_zero] at this
    exact this
  have hsum : SqInt P X fun z => ∑ j, e j z := ⟨Finset.measurable_fun_sum _ fun j _ => (he j).1, memLp_finsetSum _ fun j _ => (he j).2⟩
  have hpopsum : pop P X (fun z => ∑ j, e j z) = ∑ j, pop P X (e j) := by
    unfold pop
    exact integral_finsetSum _ fun j _ => (he j).2.integrable (by norm_num)
  have hestM : ∀ n, ∀ ω ∈ ⋂ k, G k n, ∀ k, estM X θ u a k n ω = est k n ω := by
    intro n ω hω k
    unfold estM
    rw [← (hp k).est_eq n ω (Set.mem_iInter.1 hω k)]
    ring
  refine ⟨?_, ?_, ?_, ?_, ?_, ?_, ?_, ?_, ?_, ?_, ?_, ?_⟩
  · rintro (p | k)
    · exact (hp p.1).u2 p.2
    · exact ⟨(he k).1.sub (hsum.1.const_mul _), (he k).2.sub (hsum.2.const_mul _)⟩
  · rintro (p | k)
    · exact (hp p.1).u0 p.2
    · have : pop P X (fun z => e k z - pwt P X e k * ∑ j, e j z) = pop P X (e k) - pwt P X e k * pop P X fun z => ∑ j, e j z := by
        unfold pop
        rw [← integral_const_mul]
        exact integral_sub ((he k).2.integrable (by norm_num)) ((hsum.2.integrable (by norm_num)).const_mul _)
      rw [Sum.elim_inr, this, hpopsum, pwt, div_mul_cancel₀ _ hS, sub_self]
  · rintro n (p | k)
    · exact (hmw n p.1).mul ((hp p.1).am n p.2)
    · exact aemeasurable_const.div (hmS n)
  · filter_upwards [hl, ae_all_iff.2 fun k => (hp k).alim] with ω h1 h2
    have hs : Tendsto (fun n => ∑ j, avg X (e j) n ω) atTop (𝓝 (∑ j, pop P X (e j))) := tendsto_finsetSum _ fun j _ => h1 j
    rintro (p | k)
    · exact ((h1 p.1).div hs hS).mul (h2 p.1 p.2)
    · exact tendsto_const_nhds.div hs hS
  · rintro (p | k)
    · exact (hp p.1).f2 p.2
    · exact he k
  · rintro n (p | k)
    · exact (hmw n p.1).mul ((hp p.1).cm n p.2)
    · exact ((hme n k).div (hmS n)).sub ((Finset.aemeasurable_fun_sum _ fun j _ => (hm n j).mul (hme n j)).div ((hmS n).pow_const 2))
  · filter_upwards [hl, hle, ae_all_iff.2 fun k => (hp k).clim] with ω h1 h2 h3
    have hs : Tendsto (fun n => ∑ j, avg X (e j) n ω) atTop (𝓝 (∑ j, pop P X (e j))) := tendsto_finsetSum _ fun j _ => h1 j
    rintro (p | k)
    · exact ((h1 p.1).div hs hS).mul (h3 p.1 p.2)
    · exact ((h2 k).div hs hS).sub ((tendsto_finsetSum _ fun j _ => (h1 j).mul (h2 j)).div (hs.pow 2) (pow_ne_zero 2 hS))
  · intro z
    rw [Fintype.sum_sum_type, Fintype.sum_sum_type]
    simp only [Sum.elim_inl, Sum.elim_inr]
    congr 1
    · rw [Fintype.sum_sigma, Fintype.sum_sigma]
      refine Finset.sum_congr rfl fun k _ => ?_
      simp only [mul_assoc]
      rw [← Finset.mul_sum, ← Finset.mul_sum, (hp k).same]
    · have h1 : ∑ k, θ k / (∑ j, pop P X (e j)) * (e k z - pwt P X e k * ∑ j, e j z) =
          ∑ k, θ k / (∑ j, pop P X (e j)) * e k z - (∑ k, pop P X (e k) * θ k) / (∑ j, pop P X (e j)) ^ 2 * ∑ j, e j z := by
        rw [Finset.sum_div, Finset.sum_mul, ← Finset.sum_sub_distrib]
        refine Finset.sum_congr rfl fun k _ => ?_
        unfold pwt
        field_simp
      rw [h1, Finset.mul_sum, ← Finset.sum_sub_distrib]
      exact Finset.sum_congr rfl fun k _ => by ring
  · intro n
    exact (NullMeasurableSet.iInter fun k => (hp k).Gm n).inter ((hmS n).nullMeasurable (measurableSet_singleton 0).compl)
  · filter_upwards [hl, ae_all_iff.2 fun k => (hp k).Gev] with ω h1 h
    have hs : Tendsto (fun n => ∑ j, avg X (e j) n ω) atTop (𝓝 (∑ j, pop P X (e j))) := tendsto_finsetSum _ fun j _ => h1 j
    filter_upwards [eventually_all.2 h, hs.eventually_ne hS] with n hn hne
    exact ⟨Set.mem_iInter.2 hn, hne⟩
  · rintro n ω ⟨hω, hne⟩
    rw [Set.mem_ofPred_eq] at hne
    rw [Fintype.sum_sum_type]
    simp only [Sum.elim_inl, Sum.elim_inr]
    rw [Fintype.sum_sigma, ← Finset.sum_add_distrib, ← Finset.sum_sub_distrib]
    have hw : ∀ k, avg X (fun z => e k z - pwt P X e k * ∑ j, e j z) n ω = avg X (e k) n ω - pwt P X e k * ∑ j, avg X (e j) n ω := by
      intro k
      unfold avg
      rw [Finset.sum_sub_distrib, sub_div, ← Finset.sum_div, ← Finset.mul_sum, Finset.sum_comm]
      ring
    refine Finset.sum_congr rfl fun k _ => ?_
    simp only [mul_assoc]
    rw [← Finset.mul_sum, ← (hp k).est_eq n ω (Set.mem_iInter.1 hω k), hw, ewt]
    field_simp
    ring
  · rintro n ω ⟨hω, hne⟩ i
    rw [Set.mem_ofPred_eq] at hne
    rw [Fintype.sum_sum_type]
    simp only [Sum.elim_inl, Sum.elim_inr]
    congr 1
    · rw [Fintype.sum_sigma]
      refine Finset.sum_congr rfl fun k _ => ?_
      rw [(hp k).inf_eq n ω (Set.mem_iInter.1 hω k), Finset.mul_sum]
      simp only [mul_assoc]
    · simp only [hestM n ω hω, sub_mul, Finset.sum_sub_distrib]
      congr 1
      · exact Finset.sum_congr rfl fun k _ => by ring
      · rw [← Finset.mul_sum, Finset.sum_div, Finset.sum_mul]
        exact Finset.sum_congr rfl fun k _ => by ring

end

section
variable {P : Measure Ω} [IsProbabilityMeasure P] {X : ℕ → Ω → 𝓧} (hX : Sampling P X) {J L : Type*} [Fintype J] [Fintype L]
  {est : ℕ → Ω → ℝ} {inf : (n : ℕ) → Ω → Fin n → ℝ} {θ : ℝ} {G : ℕ → Set Ω} {u : J → 𝓧 → ℝ} {a : ℕ → Ω → J → ℝ} {a' : J → ℝ}
  {f : L → 𝓧 → ℝ} {c : ℕ → Ω → L → ℝ} {c' : L → ℝ} (hp : Plugin P X est inf θ G u a a' f c c') (h0 : ∀ n, ∀ ω ∈ G n, DR.mean (inf n ω) = 0)
include hX hp h0

/-- Coverage with the uncentred standard error. -/
theorem Plugin.plain_coverage (z : ℝ) (hz : 0 ≤ z) (hv : 0 < pop P X fun z => (∑ j, a' j * u j z) ^ 2) (A : ℕ → Set Ω)
    (hA : ∀ n, ∀ ω ∈ G n, ω ∈ A n ↔ est n ω - z * plainSe (inf n ω) ≤ θ ∧ θ ≤ est n ω + z * plainSe (inf n ω)) :
    Tendsto (fun n => P.real (A n)) atTop (𝓝 (Phi z - Phi (-z))) := by
  refine hp.coverage hX z hz hv (fun _ => 1) tendsto_const_nhds A fun n ω hω => ?_
  rw [hA n ω hω, h0 n ω hω, zero_pow two_ne_zero, sub_zero, mul_one, plainSe, Real.sqrt_div (by unfold DR.mean; positivity)]

/-- Limit of the uncentred standard error. -/
theorem Plugin.plain_se : ∀ᵐ ω ∂P, Tendsto (fun n : ℕ => Real.sqrt n * plainSe (inf n ω)) atTop (𝓝 (Real.sqrt (pop P X fun z => (∑ j, a' j * u j z) ^ 2))) := by
  filter_upwards [hp.moments hX, hp.Gev] with ω h hG
  refine h.sqrt.congr' ?_
  filter_upwards [hG, eventually_ge_atTop 1] with n hn h1
  have : Real.sqrt n ≠ 0 := (Real.sqrt_pos.2 (by exact_mod_cast h1)).ne'
  rw [h0 n ω hn, zero_pow two_ne_zero, sub_zero, plainSe, Real.sqrt_div (by unfold DR.mean; positivity), mul_div_cancel₀ _ this]

/-- The reported standard error is NaN from some sample size on: it falls below the fixed tolerance. -/
theorem Plugin.tolerance : ∀ᵐ ω ∂P, ∀ᶠ n in atTop, reportSe (plainSe (inf n ω)) = none := by
  filter_upwards [hp.plain_se hX h0] with ω h
  have hs : Tendsto (fun n : ℕ => (Real.sqrt n)⁻¹) atTop (𝓝 0) := tendsto_inv_atTop_zero.comp (Real.tendsto_sqrt_atTop.comp tendsto_natCast_atTop_atTop)
  have h2 := hs.mul h
  rw [zero_mul] at h2
  have ht : (0 : ℝ) < seTol := by unfold seTol; positivity
  filter_upwards [h2.eventually_le_const ht, eventually_ge_atTop 1] with n hn h1
  have : Real.sqrt n ≠ 0 := (Real.sqrt_pos.2 (by exact_mod_cast h1)).ne'
  rw [inv_mul_cancel_left₀ this] at hn
  exact if_pos hn

end

section
variable {P : Measure Ω} [IsProbabilityMeasure P] {X : ℕ → Ω → 𝓧} (hX : Sampling P X) {J L J' L' : Type*} [Fintype J] [Fintype L] [Fintype J'] [Fintype L']
  {est : ℕ → Ω → ℝ} {inf : (n : ℕ) → Ω → Fin n → ℝ} {θ : ℝ} {G : ℕ → Set Ω} {u : J → 𝓧 → ℝ} {a : ℕ → Ω → J → ℝ} {a' : J → ℝ}
  {f : L → 𝓧 → ℝ} {c : ℕ → Ω → L → ℝ} {c' : L → ℝ} (hp : Plugin P X est inf θ G u a a' f c c')
include hX hp

theorem Plugin.relabel (σ : J' ≃ J) (τ : L' ≃ L) : Plugin P X est inf θ G (fun j => u (σ j)) (fun n ω j => a n ω (σ j)) (fun j => a' (σ j))
    (fun j => f (τ j)) (fun n ω j => c n ω (τ j)) fun j => c' (τ j) := by
  refine ⟨fun j => hp.u2 _, fun j => hp.u0 _, fun n j => hp.am n _, ?_, fun j => hp.f2 _, fun n j => hp.cm n _, ?_, fun z => ?_, hp.Gm, hp.Gev, fun n ω hω => ?_,
    fun n ω hω i => ?_⟩
  · filter_upwards [hp.alim] with ω h j using h _
  · filter_upwards [hp.clim] with ω h j using h _
  · rw [Equiv.sum_comp σ fun j => a' j * u j z, Equiv.sum_comp τ fun l => c' l * f l z, hp.same]
  · rw [Equiv.sum_comp σ fun j => a n ω j * avg X (u j) n ω, hp.est_eq n ω hω]
  · rw [Equiv.sum_comp τ fun l => c n ω l * f l (X i ω), hp.inf_eq n ω hω i]

end

/-! ## Specification of valid large-sample inference -/

/-- What users expect of a reported estimate with its influence function `psi` and standard error `plainSe psi`: with probability one it is reported from some
sample size on, it tends to `θ`, `√n` times the standard error tends to the standard deviation of the influence `ψ`, and (unless that is zero) the probability that
estimate ± critical value × standard error contains `θ` tends to `1 - alpha`. -/
structure Inference (P : Measure Ω) (X : ℕ → Ω → 𝓧) (rep : (n : ℕ) → Ω → Option (ℝ × (Fin n → ℝ))) (θ : ℝ) (ψ : 𝓧 → ℝ) : Prop where
  limit : ∀ᵐ ω ∂P, ∃ att se : ℕ → ℝ, (∀ᶠ n in atTop, ∃ psi, rep n ω = some (att n, psi) ∧ plainSe psi = se n) ∧ Tendsto att atTop (𝓝 θ) ∧
    Tendsto (fun n : ℕ => Real.sqrt n * se n) atTop (𝓝 (Real.sqrt (pop P X fun z => ψ z ^ 2)))
  coverage : ∀ alpha, 0 < alpha → alpha < 1 → 0 < pop P X (fun z => ψ z ^ 2) →
    Tendsto (fun n => P.real {ω | ∃ att psi, rep n ω = some (att, psi) ∧ (Report.rowInterval (Report.zcrit alpha) att (plainSe psi)).1 ≤ θ ∧
      θ ≤ (Report.rowInterval (Report.zcrit alpha) att (plainSe psi)).2}) atTop (𝓝 (1 - alpha))

/-! ## Regular estimators -/

/-- Estimators to which the theory applies, without the data of the expansion. -/
def Regular (P : Measure Ω) (X : ℕ → Ω → 𝓧) (est : ℕ → Ω → ℝ) (inf : (n : ℕ) → Ω → Fin n → ℝ) (θ : ℝ) (G : ℕ → Set Ω) (ψ : 𝓧 → ℝ) : Prop :=
  (∃ (m l : ℕ) (u : Fin m → 𝓧 → ℝ) (a : ℕ → Ω → Fin m → ℝ) (a' : Fin m → ℝ) (f : Fin l → 𝓧 → ℝ) (c : ℕ → Ω → Fin l → ℝ) (c' : Fin l → ℝ),
    Plugin P X est inf θ G u a a' f c c' ∧ ∀ z, ∑ j, a' j * u j z = ψ z) ∧ ∀ n, ∀ ω ∈ G n, DR.mean (inf n ω) = 0

section
variable {P : Measure Ω} [IsProbabilityMeasure P] {X : ℕ → Ω → 𝓧} (hX : Sampling P X)
include hX

theorem Regular.inference {est : ℕ → Ω → ℝ} {inf : (n : ℕ) → Ω → Fin n → ℝ} {θ : ℝ} {G : ℕ → Set Ω} {ψ : 𝓧 → ℝ} (h : Regular P X est inf θ G ψ)
    (rep : (n : ℕ) → Ω → Option (ℝ × (Fin n → ℝ))) (hr : ∀ n, ∀ ω ∈ G n, rep n ω = some (est n ω, inf n ω)) : Inference P X rep θ ψ := by
  obtain ⟨⟨m, l, u, a, a', f, c, c', hp, hψ⟩, h0⟩ := h
  refine ⟨?_, fun alpha ha0 ha1 hv => ?_⟩
  · filter_upwards [hp.consistent hX, hp.plain_se hX h0, hp.Gev] with ω h1 h2 h3
    simp only [hψ] at h2
    refine ⟨fun n => est n ω, fun n => plainSe (inf n ω), ?_, h1, h2⟩
    filter_upwards [h3] with n hn
    exact ⟨inf n ω, hr n ω hn, rfl⟩
  · have hz : Phi (Report.zcrit alpha) = 1 - alpha / 2 := phi_ppf _ (by linarith) (by linarith)
    have e : 1 - alpha = Phi (Report.zcrit alpha) - Phi (-Report.zcrit alpha) := by rw [phi_neg, hz]; ring
    rw [e]
    refine hp.plain_coverage hX h0 _ (ppf_half alpha ha0 ha1).le (by simpa only [hψ] using hv) _ fun n ω hω => ?_
    rw [Set.mem_ofPred_eq, hr n ω hω]
    simp only [Option.some.injEq, Prod.mk.injEq]
    constructor
    · rintro ⟨_, _, ⟨rfl, rfl⟩, h⟩
      exact h
    · intro h
      exact ⟨_, _, ⟨rfl, rfl⟩, h⟩

theorem Plugin.regular {J L : Type*} [Fintype J] [Fintype L]
    {est : ℕ → Ω → ℝ} {inf : (n : ℕ) → Ω → Fin n → ℝ} {θ : ℝ} {G : ℕ → Set Ω} {u : J → 𝓧 → ℝ} {a : ℕ → Ω → J → ℝ} {a' : J → ℝ}
    {f : L → 𝓧 → ℝ} {c : ℕ → Ω → L → ℝ} {c' : L → ℝ} (hp : Plugin P X est inf θ G u a a' f c c') {ψ : 𝓧 → ℝ} (hψ : ∀ z, ∑ j, a' j * u j z = ψ z)
    (h0 : ∀ n, ∀ ω ∈ G n, DR.mean (inf n ω) = 0) : Regular P X est inf θ G ψ := by
  refine ⟨⟨_, _, _, _, _, _, _, _, hp.relabel hX (Fintype.equivFin J).symm (Fintype.equivFin L).symm, fun z => ?_⟩, h0⟩
  rw [Equiv.sum_comp (Fintype.equivFin J).symm fun j => a' j * u j z, hψ]

omit hX in
theorem Regular.congr {est est' : ℕ → Ω → ℝ} {inf inf' : (n : ℕ) → Ω → Fin n → ℝ} {θ : ℝ} {G : ℕ → Set Ω} {ψ : 𝓧 → ℝ} (h : Regular P X est inf θ G ψ)
    (h1 : ∀ n, ∀ ω ∈ G n, est' n ω = est n ω) (h2 : ∀ n, ∀ ω ∈ G n, inf' n ω = inf n ω) : Regular P X est' inf' θ G ψ := by
  obtain ⟨⟨m, l, u, a, a', f, c, c', hp, hψ⟩, h0⟩ := h
  refine ⟨⟨m, l, u, a, a', f, c, c', ⟨hp.u2, hp.u0, hp.am, hp.alim, hp.f2, hp.cm, hp.clim, hp.same, hp.Gm, hp.Gev, fun n ω hω => ?_, fun n ω hω i => ?_⟩, hψ⟩,
    fun n ω hω => by rw [h2 n ω hω]; exact h0 n ω hω⟩
  · rw [h1 n ω hω, hp.est_eq n ω hω]
  · rw [h2 n ω hω, hp.inf_eq n ω hω]

omit hX in
theorem mean_sum {K : Type*} [Fintype K] {n : ℕ} (c : K → ℝ) (F : K → Fin n → ℝ) : DR.mean (fun i => ∑ k, c k * F k i) = ∑ k, c k * DR.mean (F k) := by
  unfold DR.mean
  rw [Finset.sum_comm, Finset.sum_div]
  exact Finset.sum_congr rfl fun k _ => by rw [← Finset.mul_sum, mul_div_assoc]

omit hX in
theorem mean_add' {n : ℕ} (F H : Fin n → ℝ) : DR.mean (fun i => F i + H i) = DR.mean F + DR.mean H := by
  unfold DR.mean
  rw [Finset.sum_add_distrib, add_div]

omit hX in
theorem mean_mul' {n : ℕ} (c : ℝ) (F : Fin n → ℝ) : DR.mean (fun i => c * F i) = c * DR.mean F := by
  unfold DR.mean
  rw [← Finset.mul_sum, mul_div_assoc]

theorem Regular.fixed {K : Type*} [Fintype K] {est : K → ℕ → Ω → ℝ} {inf : K → (n : ℕ) → Ω → Fin n → ℝ} {θ : K → ℝ} {G : K → ℕ → Set Ω} {ψ : K → 𝓧 → ℝ}
    (h : ∀ k, Regular P X (est k) (inf k) (θ k) (G k) (ψ k)) (s : K → ℝ) :
    Regular P X (fun n ω => ∑ k, s k * est k n ω) (fun n ω i => ∑ k, s k * inf k n ω i) (∑ k, s k * θ k) (fun n => ⋂ k, G k n) fun z => ∑ k, s k * ψ k z := by
  choose m l u a a' f c c' hp hψ using fun k => (h k).1
  refine (Plugin.fixed hX hp s).regular hX (fun z => ?_) fun n ω hω => ?_
  · rw [Fintype.sum_sigma]
    refine Finset.sum_congr rfl fun k _ => ?_
    simp only [mul_assoc]
    rw [← Finset.mul_sum, hψ]
  · rw [mean_sum]
    exact Finset.sum_eq_zero fun k _ => by rw [(h k).2 n ω (Set.mem_iInter.1 hω k), mul_zero]

theorem Regular.weighted {K : Type*} [Fintype K] {est : K → ℕ → Ω → ℝ} {inf : K → (n : ℕ) → Ω → Fin n → ℝ} {θ : K → ℝ} {G : K → ℕ → Set Ω} {ψ : K → 𝓧 → ℝ}
    (h : ∀ k, Regular P X (est k) (inf k) (θ k) (G k) (ψ k)) (e : K → 𝓧 → ℝ) (he : ∀ k, SqInt P X (e k)) (hS : ∑ k, pop P X (e k) ≠ 0) :
    Regular P X (fun n ω => ∑ k, ewt X e n ω k * est k n ω)
      (fun n ω i => ∑ k, ewt X e n ω k * inf k n ω i +
        ∑ k, (e k (X i ω) / ∑ j, avg X (e j) n ω - avg X (e k) n ω * (∑ j, e j (X i ω)) / (∑ j, avg X (e j) n ω) ^ 2) * est k n ω)
      (∑ k, pwt P X e k * θ k) (fun n => (⋂ k, G k n) ∩ {ω | ∑ j, avg X (e j) n ω ≠ 0})
      fun z => ∑ k, pwt P X e k * ψ k z + (∑ k, e k z * (θ k - ∑ j, pwt P X e j * θ j)) / ∑ j, pop P X (e j) := by
  choose m l u a a' f c c' hp hψ using fun k => (h k).1
  refine (Plugin.weighted hX hp e he hS).regular hX (fun z => ?_) ?_
  · rw [Fintype.sum_sum_type]
    simp only [Sum.elim_inl, Sum.elim_inr]
    congr 1
    · rw [Fintype.sum_sigma]
      refine Finset.sum_congr rfl fun k _ => ?_
      simp only [mul_assoc]
      rw [← Finset.mul_sum, hψ]
    · have h1 : ∑ k, e k z * (θ k - ∑ j, pwt P X e j * θ j) = ∑ k, θ k * (e k z - pwt P X e k * ∑ j, e j z) := by
        simp only [mul_sub, Finset.sum_sub_distrib]
        congr 1
        · exact Finset.sum_congr rfl fun k _ => mul_comm _ _
        · rw [← Finset.sum_mul, Finset.mul_sum]
          exact Finset.sum_congr rfl fun k _ => by ring
      rw [h1, Finset.sum_div]
      exact Finset.sum_congr rfl fun k _ => by ring
  · rintro n ω ⟨hω, hne⟩
    rw [Set.mem_ofPred_eq] at hne
    rw [mean_add', mean_sum]
    have e2 : ∀ k, DR.mean (fun i : Fin n => e k (X i ω)) = avg X (e k) n ω := fun k => mean_eq X _ n ω
    have e3 : DR.mean (fun i : Fin n => ∑ j, e j (X i ω)) = ∑ j, avg X (e j) n ω := by
      have := mean_sum (fun _ => 1) fun k (i : Fin n) => e k (X i ω)
      simpa only [one_mul, e2] using this
    have hk : ∀ k, DR.mean (fun i : Fin n => e k (X i ω) / ∑ j, avg X (e j) n ω - avg X (e k) n ω * (∑ j, e j (X i ω)) / (∑ j, avg X (e j) n ω) ^ 2) = 0 := by
      intro k
      have : (fun i : Fin n => e k (X i ω) / ∑ j, avg X (e j) n ω - avg X (e k) n ω * (∑ j, e j (X i ω)) / (∑ j, avg X (e j) n ω) ^ 2) =
          fun i : Fin n => (∑ j, avg X (e j) n ω)⁻¹ * e k (X i ω) + -(avg X (e k) n ω / (∑ j, avg X (e j) n ω) ^ 2) * ∑ j, e j (X i ω) := by
        funext i
        ring
      rw [this, mean_add', mean_mul', mean_mul', e2, e3]
      field_simp
      ring
    have := mean_sum (fun k => est k n ω) fun k (i : Fin n) => e k (X i ω) / ∑ j, avg X (e j) n ω - avg X (e k) n ω * (∑ j, e j (X i ω)) / (∑ j, avg X (e j) n ω) ^ 2
    simp only [hk, mul_zero, Finset.sum_const_zero] at this
    rw [Finset.sum_eq_zero fun k _ => by rw [(h k).2 n ω (Set.mem_iInter.1 hω k), mul_zero], zero_add, ← this]
    congr 1
    funext i
    exact Finset.sum_congr rfl fun k _ => by ring

end

end Verif.Asym
