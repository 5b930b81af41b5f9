import Verif.Asym.Basic
import Verif.Ident.Variance
import Mathlib.Topology.Instances.Matrix

set_option linter.unusedSectionVars false
set_option linter.unusedSimpArgs false

/-!
# Large samples: estimators whose influence functions have estimated coefficients
-/

namespace Verif.Asym

open MeasureTheory ProbabilityTheory Filter Topology Verif.Honest

variable {Ω 𝓧 : Type*} [MeasurableSpace Ω] [MeasurableSpace 𝓧]

/-! ## Model: standard errors -/

/-- `np.std(inf, ddof=1) * np.sqrt(n - 1) / n`, `reg_did_panel.py:204`, `drdid_panel.py:156`. -/
noncomputable def analyticSe {n : ℕ} (f : Fin n → ℝ) : ℝ := Real.sqrt (Ident.var1 f) * Real.sqrt ((n : ℝ) - 1) / n

/-- `np.std(inf, ddof=1) / np.sqrt(n)`, `didtriple/estimators/ddd_panel.py:227`, `ddd_rc.py:228`. -/
noncomputable def dddSe {n : ℕ} (f : Fin n → ℝ) : ℝ := Real.sqrt (Ident.var1 f) / Real.sqrt n

/-! ## Lemmas -/

/-- Sample means of the model. -/
theorem mean_eq (X : ℕ → Ω → 𝓧) (f : 𝓧 → ℝ) (n : ℕ) (ω : Ω) : DR.mean (fun i : Fin n => f (X i ω)) = avg X f n ω := by
  unfold DR.mean avg
  rw [Fintype.card_fin, ← Fin.sum_univ_eq_sum_range fun k => f (X k ω)]

theorem sq_dev {n : ℕ} (hn : 0 < n) (f : Fin n → ℝ) :
    (∑ i, (f i - DR.mean f) ^ 2) = n * (DR.mean (fun i => f i ^ 2) - DR.mean f ^ 2) := by
  have hn' : (n : ℝ) ≠ 0 := by exact_mod_cast hn.ne'
  have h1 : ∑ i, f i = n * DR.mean f := by unfold DR.mean; rw [Fintype.card_fin, mul_div_cancel₀ _ hn']
  have h2 : ∑ i, f i ^ 2 = n * DR.mean fun i => f i ^ 2 := by unfold DR.mean; rw [Fintype.card_fin, mul_div_cancel₀ _ hn']
  have : ∀ i, (f i - DR.mean f) ^ 2 = f i ^ 2 - 2 * DR.mean f * f i + DR.mean f ^ 2 := fun i => by ring
  rw [Finset.sum_congr rfl fun i _ => this i, Finset.sum_add_distrib, Finset.sum_sub_distrib, ← Finset.mul_sum, h1, h2, Finset.sum_const, Finset.card_univ,
    Fintype.card_fin, nsmul_eq_mul]
  ring

theorem analyticSe_eq {n : ℕ} (hn : 2 ≤ n) (f : Fin n → ℝ) :
    analyticSe f = Real.sqrt (DR.mean (fun i => f i ^ 2) - DR.mean f ^ 2) / Real.sqrt n := by
  have hn' : (2 : ℝ) ≤ n := by exact_mod_cast hn
  unfold analyticSe Ident.var1
  rw [sq_dev (by omega), Fintype.card_fin, ← Real.sqrt_mul' _ (by linarith), div_mul_cancel₀ _ (by linarith), mul_comm (n : ℝ), Real.sqrt_mul' _ (by linarith),
    mul_div_assoc]
  congr 1
  rw [Real.sqrt_div_self', one_div] 

theorem dddSe_eq {n : ℕ} (hn : 2 ≤ n) (f : Fin n → ℝ) :
    dddSe f = Real.sqrt ((DR.mean (fun i => f i ^ 2) - DR.mean f ^ 2) * (n / (n - 1))) / Real.sqrt n := by
  unfold dddSe Ident.var1
  rw [sq_dev (by omega), Fintype.card_fin]
  congr 2
  ring

/-- Inverse of a matrix of numbers. -/
noncomputable def minv {κ : Type*} [Fintype κ] [DecidableEq κ] (A : κ → κ → ℝ) (k l : κ) : ℝ := (Matrix.of A)⁻¹ k l

section
variable {κ : Type*} [Fintype κ] [DecidableEq κ]

theorem det_cont : Continuous fun A : κ → κ → ℝ => (Matrix.of A).det :=
  Continuous.matrix_det (continuous_matrix fun i j => by
    simp only [Matrix.of_apply]
    exact (continuous_apply j).comp (continuous_apply i))

theorem adj_cont (k l : κ) : Continuous fun A : κ → κ → ℝ => (Matrix.of A).adjugate k l := by
  have : Continuous fun A : κ → κ → ℝ => (Matrix.of A).adjugate := Continuous.matrix_adjugate (continuous_matrix fun i j => by
    simp only [Matrix.of_apply]
    exact (continuous_apply j).comp (continuous_apply i))
  exact this.matrix_elem k l

theorem minv_eq (A : κ → κ → ℝ) (k l : κ) : minv A k l = ((Matrix.of A).det)⁻¹ * (Matrix.of A).adjugate k l := by
  unfold minv
  rw [Matrix.inv_def, Ring.inverse_eq_inv', Matrix.smul_apply, smul_eq_mul]

theorem minv_measurable (k l : κ) : Measurable fun A : κ → κ → ℝ => minv A k l := by
  simp only [minv_eq]
  exact det_cont.measurable.inv.mul (adj_cont k l).measurable

theorem minv_tendsto {A : ℕ → κ → κ → ℝ} {B : κ → κ → ℝ} (h : ∀ k l, Tendsto (fun n => A n k l) atTop (𝓝 (B k l))) (hB : (Matrix.of B).det ≠ 0) (k l : κ) :
    Tendsto (fun n => minv (A n) k l) atTop (𝓝 (minv B k l)) := by
  have hA : Tendsto A atTop (𝓝 B) := tendsto_pi_nhds.2 fun k => tendsto_pi_nhds.2 fun l => h k l
  simp only [minv_eq]
  exact ((det_cont.tendsto B).comp hA).inv₀ hB |>.mul (((adj_cont k l).tendsto B).comp hA)

theorem det_eventually {A : ℕ → κ → κ → ℝ} {B : κ → κ → ℝ} (h : ∀ k l, Tendsto (fun n => A n k l) atTop (𝓝 (B k l))) (hB : (Matrix.of B).det ≠ 0) :
    ∀ᶠ n in atTop, (Matrix.of (A n)).det ≠ 0 := by
  have hA : Tendsto A atTop (𝓝 B) := tendsto_pi_nhds.2 fun k => tendsto_pi_nhds.2 fun l => h k l
  exact ((det_cont.tendsto B).comp hA).eventually_ne hB

theorem aemeas_mat {P : Measure Ω} {A : Ω → κ → κ → ℝ} (h : ∀ k l, AEMeasurable (fun ω => A ω k l) P) : AEMeasurable A P :=
  aemeasurable_pi_iff.2 fun k => aemeasurable_pi_iff.2 fun l => h k l

end

section
variable {P : Measure Ω} [IsProbabilityMeasure P] {X : ℕ → Ω → 𝓧} (hX : Sampling P X) {J L : Type*} [Fintype J] [Fintype L]

/-- Ingredients of an estimator: on the events `G`, `est - θ` is the combination of the sample means of `u` with coefficients `a`, its influence function is
the combination of `f` with coefficients `c`, and in the limit both are the influence function of the population. -/
structure Plugin (P : Measure Ω) (X : ℕ → Ω → 𝓧) (est : ℕ → Ω → ℝ) (inf : (n : ℕ) → Ω → Fin n → ℝ) (θ : ℝ) (G : ℕ → Set Ω)
    (u : J → 𝓧 → ℝ) (a : ℕ → Ω → J → ℝ) (a' : J → ℝ) (f : L → 𝓧 → ℝ) (c : ℕ → Ω → L → ℝ) (c' : L → ℝ) : Prop where
  u2 : ∀ j, SqInt P X (u j)
  u0 : ∀ j, pop P X (u j) = 0
  am : ∀ n j, AEMeasurable (fun ω => a n ω j) P
  alim : ∀ᵐ ω ∂P, ∀ j, Tendsto (fun n => a n ω j) atTop (𝓝 (a' j))
  f2 : ∀ j, SqInt P X (f j)
  cm : ∀ n j, AEMeasurable (fun ω => c n ω j) P
  clim : ∀ᵐ ω ∂P, ∀ j, Tendsto (fun n => c n ω j) atTop (𝓝 (c' j))
  same : ∀ z, ∑ j, a' j * u j z = ∑ l, c' l * f l z
  Gm : ∀ n, NullMeasurableSet (G n) P
  Gev : ∀ᵐ ω ∂P, ∀ᶠ n in atTop, ω ∈ G n
  est_eq : ∀ n, ∀ ω ∈ G n, est n ω - θ = ∑ j, a n ω j * avg X (u j) n ω
  inf_eq : ∀ n, ∀ ω ∈ G n, ∀ i, inf n ω i = ∑ l, c n ω l * f l (X i ω)

variable {est : ℕ → Ω → ℝ} {inf : (n : ℕ) → Ω → Fin n → ℝ} {θ : ℝ} {G : ℕ → Set Ω} {u : J → 𝓧 → ℝ} {a : ℕ → Ω → J → ℝ} {a' : J → ℝ}
  {f : L → 𝓧 → ℝ} {c : ℕ → Ω → L → ℝ} {c' : L → ℝ} (hp : Plugin P X est inf θ G u a a' f c c')
include hX hp

/-- Consistency. -/
theorem Plugin.consistent : ∀ᵐ ω ∂P, Tendsto (fun n => est n ω) atTop (𝓝 θ) := by
  have h1 : ∀ᵐ ω ∂P, ∀ j, Tendsto (fun n => avg X (u j) n ω) atTop (𝓝 (pop P X (u j))) := ae_all_iff.2 fun j => lln2 hX (hp.u2 j)
  filter_upwards [h1, hp.alim, hp.Gev] with ω h1 ha hG
  have : Tendsto (fun n => ∑ j, a n ω j * avg X (u j) n ω) atTop (𝓝 (∑ j, a' j * pop P X (u j))) :=
    tendsto_finsetSum _ fun j _ => (ha j).mul (h1 j)
  simp only [hp.u0, mul_zero, Finset.sum_const_zero] at this
  have h2 := (this.add_const θ)
  rw [zero_add] at h2
  refine h2.congr' ?_
  filter_upwards [hG] with n hn
  rw [← hp.est_eq n ω hn, sub_add_cancel]

/-- The population mean of the squared influence function. -/
theorem Plugin.moments : ∀ᵐ ω ∂P, Tendsto (fun n => DR.mean (fun i => inf n ω i ^ 2) - DR.mean (inf n ω) ^ 2) atTop
    (𝓝 (pop P X fun z => (∑ j, a' j * u j z) ^ 2)) := by
  have h0 : pop P X (fun z => ∑ l, c' l * f l z) = 0 := by
    simp only [← hp.same]
    unfold pop
    rw [integral_finsetSum _ fun j _ => ((hp.u2 j).2.integrable (by norm_num)).const_mul _]
    refine Finset.sum_eq_zero fun j _ => ?_
    rw [integral_const_mul, show ∫ ω, u j (X 0 ω) ∂P = 0 from hp.u0 j, mul_zero]
  filter_upwards [Asym.moments hX f hp.f2 c c' hp.clim, hp.Gev] with ω h hG
  have h3 := h.1.sub (h.2.pow 2)
  rw [h0, zero_pow two_ne_zero, sub_zero] at h3
  simp only [hp.same]
  refine h3.congr' ?_
  filter_upwards [hG] with n hn
  have e := hp.inf_eq n ω hn
  have e1 : DR.mean (inf n ω) = (∑ k ∈ Finset.range n, ∑ j, c n ω j * f j (X k ω)) / n := by
    rw [funext e]
    unfold DR.mean
    rw [Fintype.card_fin, ← Fin.sum_univ_eq_sum_range fun k => ∑ j, c n ω j * f j (X k ω)]
  have e2 : DR.mean (fun i => inf n ω i ^ 2) = (∑ k ∈ Finset.range n, (∑ j, c n ω j * f j (X k ω)) ^ 2) / n := by
    rw [funext e]
    unfold DR.mean
    rw [Fintype.card_fin, ← Fin.sum_univ_eq_sum_range fun k => (∑ j, c n ω j * f j (X k ω)) ^ 2]
  rw [e1, e2]

/-- The standard error times `√n` tends to the standard deviation of the influence function. -/
theorem Plugin.se_limit : ∀ᵐ ω ∂P, Tendsto (fun n : ℕ => Real.sqrt n * analyticSe (inf n ω)) atTop
    (𝓝 (Real.sqrt (pop P X fun z => (∑ j, a' j * u j z) ^ 2))) := by
  filter_upwards [hp.moments hX] with ω h
  refine h.sqrt.congr' ?_
  filter_upwards [eventually_ge_atTop 2] with n hn
  have : Real.sqrt n ≠ 0 := (Real.sqrt_pos.2 (by exact_mod_cast (by omega : 0 < n))).ne'
  rw [analyticSe_eq hn, mul_div_cancel₀ _ this]

/-- Asymptotic coverage of `est ± z se`, for any standard error that agrees with `r (mean inf² - (mean inf)²)` over `√n`, `r n → 1`. -/
theorem Plugin.coverage (z : ℝ) (hz : 0 ≤ z) (hv : 0 < pop P X fun z => (∑ j, a' j * u j z) ^ 2) (r : ℕ → ℝ) (hr : Tendsto r atTop (𝓝 1))
    (A : ℕ → Set Ω) (hA : ∀ n, ∀ ω ∈ G n, ω ∈ A n ↔
      est n ω - z * (Real.sqrt ((DR.mean (fun i => inf n ω i ^ 2) - DR.mean (inf n ω) ^ 2) * r n) / Real.sqrt n) ≤ θ ∧
      θ ≤ est n ω + z * (Real.sqrt ((DR.mean (fun i => inf n ω i ^ 2) - DR.mean (inf n ω) ^ 2) * r n) / Real.sqrt n)) :
    Tendsto (fun n => P.real (A n)) atTop (𝓝 (Phi z - Phi (-z))) := by
  obtain ⟨v, hvv⟩ : ∃ v, v = pop P X fun z => (∑ j, a' j * u j z) ^ 2 := ⟨_, rfl⟩
  rw [← hvv] at hv
  obtain ⟨est', hest'⟩ : ∃ e : ℕ → Ω → ℝ, e = fun n ω => θ + ∑ j, a n ω j * avg X (u j) n ω := ⟨_, rfl⟩
  obtain ⟨inf', hinf'⟩ : ∃ e : (n : ℕ) → Ω → Fin n → ℝ, e = fun n ω (i : Fin n) => ∑ l, c n ω l * f l (X i.1 ω) := ⟨_, rfl⟩
  obtain ⟨se', hse'⟩ : ∃ s : ℕ → Ω → ℝ, s = fun n ω =>
    Real.sqrt ((DR.mean (fun i => inf' n ω i ^ 2) - DR.mean (inf' n ω) ^ 2) * r n) / Real.sqrt n := ⟨_, rfl⟩
  have hT := combination hX u hp.u2 hp.u0 a a' hp.am hp.alim
  rw [← hvv] at hT
  have hp' : Plugin P X est' inf' θ (fun _ => Set.univ) u a a' f c c' :=
    { hp with
      Gm := fun _ => MeasurableSet.univ.nullMeasurableSet
      Gev := ae_of_all _ fun _ => .of_forall fun _ => trivial
      est_eq := fun n ω _ => by rw [hest']; ring
      inf_eq := fun n ω _ i => by rw [hinf'] }
  have hinfm : ∀ n i, AEMeasurable (fun ω => inf' n ω i) P := by
    intro n i
    rw [hinf']
    exact Finset.aemeasurable_fun_sum _ fun l _ => (hp.cm n l).mul ((hp.f2 l).1.comp_aemeasurable (hX.aemeas i))
  have hsem : ∀ n, AEMeasurable (se' n) P := by
    intro n
    rw [hse']
    unfold DR.mean
    have h1 : AEMeasurable (fun ω => ∑ i, inf' n ω i ^ 2) P := Finset.aemeasurable_fun_sum _ fun i _ => (hinfm n i).pow_const 2
    have h2 : AEMeasurable (fun ω => ∑ i, inf' n ω i) P := Finset.aemeasurable_fun_sum _ fun i _ => hinfm n i
    exact ((((h1.div_const _).sub ((h2.div_const _).pow_const 2)).mul_const _).sqrt).div_const _
  have hsl : ∀ᵐ ω ∂P, Tendsto (fun n : ℕ => Real.sqrt n * se' n ω) atTop (𝓝 (Real.sqrt v)) := by
    filter_upwards [hp'.moments hX] with ω h
    rw [← hvv] at h
    have h2 := (h.mul hr).sqrt
    rw [mul_one] at h2
    refine h2.congr' ?_
    filter_upwards [eventually_ge_atTop 1] with n hn
    have : Real.sqrt n ≠ 0 := (Real.sqrt_pos.2 (by exact_mod_cast hn)).ne'
    rw [hse']
    dsimp only
    rw [mul_div_cancel₀ _ this]
  have hcov := coverage_limit est' se' θ (Real.sqrt v) z (Real.sqrt_pos.2 hv) hz (by
    rw [Real.sq_sqrt hv.le]
    refine hT.congr (fun n => ae_of_all _ fun ω => ?_) (ae_of_all _ fun _ => rfl)
    rw [hest']
    simp) hsem hsl
  refine prob_agree A _ G hp.Gm hp.Gev (fun n ω hω => ?_) _ hcov
  have e1 : est' n ω = est n ω := by
    rw [hest']
    dsimp only
    rw [← hp.est_eq n ω hω]
    ring
  have e2 : inf' n ω = inf n ω := by
    rw [hinf']
    funext i
    exact (hp.inf_eq n ω hω i).symm
  rw [hA n ω hω, Set.mem_ofPred_eq, e1, hse']
  dsimp only
  rw [e2]

end

end Verif.Asym
