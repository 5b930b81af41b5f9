import Verif.Ident.AttGt
import Mathlib.LinearAlgebra.Matrix.NonsingularInverse

set_option linter.unusedSectionVars false
set_option linter.unusedSimpArgs false

/-!
# C251: two-period estimators with covariates when the outcome model is linear

Covariates, treatment and weights are fixed, the outcomes are random.
-/

namespace Verif.Ident

open Verif.DR MeasureTheory

variable {ι κ Ω : Type*} [Fintype ι] [Fintype κ] [DecidableEq κ] [MeasurableSpace Ω]

/-! ## Specification -/

/-- The regression routine solves the least-squares problem of this design, and the solution is unique. -/
structure Fits (ols : OLS ι κ ℝ) (w : ι → ℝ) (sel : ι → Bool) (x : ι → κ → ℝ) : Prop where
  solves : ∀ y, NormalEq w sel x y (ols w sel x y)
  rank : FullRank w sel x

/-- Conditional parallel trends with a linear model: the mean change of unit `i` is `x i · β`, plus `effect i` if it is treated. -/
structure LinearTrends (P : Measure Ω) (y1 y0 : Ω → ι → ℝ) (d : ι → Bool) (x : ι → κ → ℝ) (β : κ → ℝ) (effect : ι → ℝ) : Prop where
  int1 : ∀ i, Integrable (fun ω => y1 ω i) P
  int0 : ∀ i, Integrable (fun ω => y0 ω i) P
  mean : ∀ i, (∫ ω, y1 ω i ∂P) - ∫ ω, y0 ω i ∂P = ∑ k, x i k * β k + if d i then effect i else 0

/-! ## Lemmas -/

theorem sum_integral {α : Type*} (P : Measure Ω) (s : Finset α) (f : Ω → α → ℝ) (h : ∀ i ∈ s, Integrable (fun ω => f ω i) P) :
    Integrable (fun ω => ∑ i ∈ s, f ω i) P ∧ ∫ ω, ∑ i ∈ s, f ω i ∂P = ∑ i ∈ s, ∫ ω, f ω i ∂P :=
  ⟨integrable_finsetSum s h, integral_finsetSum s h⟩

/-- Least squares is unbiased. -/
theorem ols_mean (P : Measure Ω) (ols : OLS ι κ ℝ) (w : ι → ℝ) (sel : ι → Bool) (x : ι → κ → ℝ) (hf : Fits ols w sel x) (y : Ω → ι → ℝ)
    (hy : ∀ i, Integrable (fun ω => y ω i) P) (β : κ → ℝ) (hm : ∀ i, sel i = true → ∫ ω, y ω i ∂P = ∑ k, x i k * β k) (k : κ) :
    Integrable (fun ω => ols w sel x (y ω) k) P ∧ ∫ ω, ols w sel x (y ω) k ∂P = β k := by
  let Gm : Matrix κ κ ℝ := Matrix.of fun k l => ∑ i with sel i = true, w i * x i k * x i l
  have hG : ∀ v : κ → ℝ, ∀ k, (Gm.mulVec v) k = ∑ i with sel i = true, w i * (∑ l, x i l * v l) * x i k := by
    intro v k
    simp only [Gm, Matrix.mulVec, dotProduct, Matrix.of_apply, Finset.sum_mul]
    rw [Finset.sum_comm]
    refine Finset.sum_congr rfl fun i _ => ?_
    rw [Finset.mul_sum, Finset.sum_mul]
    exact Finset.sum_congr rfl fun l _ => by ring
  have hu : IsUnit Gm := by
    rw [← Matrix.mulVec_injective_iff_isUnit]
    intro a b hab
    have : Gm.mulVec (a - b) = 0 := by rw [Matrix.mulVec_sub, sub_eq_zero]; exact hab
    have h0 := hf.rank (a - b) fun k => by rw [← hG]; exact congrFun this k
    exact sub_eq_zero.1 h0
  have hdet := (Matrix.isUnit_iff_isUnit_det Gm).1 hu
  have hsol : ∀ (y : ι → ℝ) (v : κ → ℝ), NormalEq w sel x y v → v = Gm⁻¹.mulVec fun k => ∑ i with sel i = true, w i * y i * x i k := by
    intro y v hv
    have : Gm.mulVec v = fun k => ∑ i with sel i = true, w i * y i * x i k := by
      funext k
      rw [hG]
      have := hv k
      simp only [mul_sub, sub_mul, Finset.sum_sub_distrib, sub_eq_zero] at this
      exact this.symm
    rw [← this, Matrix.mulVec_mulVec, Matrix.nonsing_inv_mul _ hdet, Matrix.one_mulVec]
  have hβ : NormalEq w sel x (fun i => ∫ ω, y ω i ∂P) β := by
    intro k
    refine Finset.sum_eq_zero fun i hi => ?_
    dsimp only
    rw [hm i (Finset.mem_filter.1 hi).2, sub_self]
    ring
  have hb : ∀ l, Integrable (fun ω => ∑ i with sel i = true, w i * y ω i * x i l) P ∧
      ∫ ω, ∑ i with sel i = true, w i * y ω i * x i l ∂P = ∑ i with sel i = true, w i * (∫ ω, y ω i ∂P) * x i l := by
    intro l
    have := sum_integral P (Finset.univ.filter fun i => sel i = true) (fun ω i => w i * y ω i * x i l)
      fun i _ => ((hy i).const_mul _).mul_const _
    refine ⟨this.1, this.2.trans (Finset.sum_congr rfl fun i _ => ?_)⟩
    rw [integral_mul_const, integral_const_mul]
  have he : ∀ ω, ols w sel x (y ω) k = ∑ l, Gm⁻¹ k l * ∑ i with sel i = true, w i * y ω i * x i l := by
    intro ω
    conv_lhs => rw [hsol (y ω) _ (hf.solves (y ω))]
    rfl
  have hi := sum_integral P Finset.univ (fun ω l => Gm⁻¹ k l * ∑ i with sel i = true, w i * y ω i * x i l)
    fun l _ => (hb l).1.const_mul _
  refine ⟨(integrable_congr (ae_of_all P he)).2 hi.1, ?_⟩
  rw [integral_congr_ae (ae_of_all P he), hi.2]
  have : β k = (Gm⁻¹.mulVec fun k => ∑ i with sel i = true, w i * (∫ ω, y ω i ∂P) * x i k) k := congrFun (hsol _ β hβ) k
  rw [this]
  refine Finset.sum_congr rfl fun l _ => ?_
  rw [integral_const_mul, (hb l).2]

theorem fitted_mean (P : Measure Ω) (x : ι → κ → ℝ) (b : Ω → κ → ℝ) (β : κ → ℝ) (h : ∀ k, Integrable (fun ω => b ω k) P ∧ ∫ ω, b ω k ∂P = β k)
    (i : ι) : Integrable (fun ω => fitted x (b ω) i) P ∧ ∫ ω, fitted x (b ω) i ∂P = ∑ k, x i k * β k := by
  have := sum_integral P Finset.univ (fun ω k => x i k * b ω k) fun k _ => (h k).1.const_mul _
  refine ⟨this.1, this.2.trans (Finset.sum_congr rfl fun k _ => ?_)⟩
  rw [integral_const_mul, (h k).2]

/-- Mean residual: zero for comparison units, the effect for treated ones. -/
theorem residual_mean (P : Measure Ω) (ols : OLS ι κ ℝ) (w : ι → ℝ) (y1 y0 : Ω → ι → ℝ) (d : ι → Bool) (x : ι → κ → ℝ) (β : κ → ℝ)
    (effect : ι → ℝ) (hf : Fits ols w (notB d) x) (hl : LinearTrends P y1 y0 d x β effect) (i : ι) :
    Integrable (fun ω => (y1 ω i - y0 ω i) - fitted x (ols w (notB d) x fun i => y1 ω i - y0 ω i) i) P ∧
      ∫ ω, ((y1 ω i - y0 ω i) - fitted x (ols w (notB d) x fun i => y1 ω i - y0 ω i) i) ∂P = if d i then effect i else 0 := by
  have hd : ∀ i, Integrable (fun ω => y1 ω i - y0 ω i) P := fun i => (hl.int1 i).sub (hl.int0 i)
  have hm : ∀ i, ∫ ω, (y1 ω i - y0 ω i) ∂P = ∑ k, x i k * β k + if d i then effect i else 0 := fun i => by
    rw [integral_sub (hl.int1 i) (hl.int0 i), hl.mean i]
  have hb := fun k => ols_mean P ols w (notB d) x hf (fun ω i => y1 ω i - y0 ω i) hd β (fun i hi => by
    rw [hm i]
    have : d i = false := by simpa [notB] using hi
    simp [this]) k
  obtain ⟨h1, h2⟩ := fitted_mean P x (fun ω => ols w (notB d) x fun i => y1 ω i - y0 ω i) β hb i
  refine ⟨(hd i).sub h1, ?_⟩
  rw [integral_sub (hd i) h1, hm i, h2]
  ring

/-- Ratio of means of random residuals. -/
theorem wmean_integral (P : Measure Ω) (w : ι → ℝ) (r : Ω → ι → ℝ) (m : ι → ℝ) (h : ∀ i, Integrable (fun ω => r ω i) P ∧ ∫ ω, r ω i ∂P = m i) :
    Integrable (fun ω => wmean w (r ω)) P ∧ ∫ ω, wmean w (r ω) ∂P = wmean w m := by
  unfold wmean DR.mean
  have := sum_integral P Finset.univ (fun ω i => w i * r ω i) fun i _ => (h i).1.const_mul _
  refine ⟨(this.1.div_const _).div_const _, ?_⟩
  rw [integral_div, integral_div, this.2]
  congr 2
  exact Finset.sum_congr rfl fun i _ => by rw [integral_const_mul, (h i).2]

theorem wmean_treated (w0 : ι → ℝ) (d : ι → Bool) (hw : BothArms w0 d) (f : ι → ℝ) (v : ι → ℝ) (hv : ∀ i, v i = normalize w0 i * ind d i) :
    wmean v f = wavg w0 (fun i => d i = true) f := by
  have hne : (Fintype.card ι : ℝ) ≠ 0 := by
    have := hw.nonempty
    exact_mod_cast Fintype.card_ne_zero
  have hsum : 0 < ∑ i, w0 i :=
    lt_of_lt_of_le hw.treated (Finset.sum_le_sum_of_subset_of_nonneg (Finset.filter_subset _ _) fun i _ _ => hw.nonneg i)
  have hmean : DR.mean w0 ≠ 0 := div_ne_zero hsum.ne' hne
  have e : ∀ g : ι → ℝ, DR.mean (fun i => v i * g i) = (∑ i with d i = true, w0 i * g i) / DR.mean w0 / Fintype.card ι := by
    intro g
    unfold DR.mean
    congr 1
    rw [Finset.sum_filter, Finset.sum_div]
    refine Finset.sum_congr rfl fun i _ => ?_
    dsimp only
    rw [hv, DR.normalize, ind]
    unfold DR.mean
    by_cases h : d i = true
    · simp [h]; ring
    · simp [h]
  have e1 : DR.mean v = (∑ i with d i = true, w0 i) / DR.mean w0 / Fintype.card ι := by
    have := e fun _ => 1
    simpa using this
  unfold wmean wavg
  rw [e f, e1, div_div_div_cancel_right₀ hne, div_div_div_cancel_right₀ hmean]

theorem mean_treated_ne (w0 : ι → ℝ) (d : ι → Bool) (hw : BothArms w0 d) (v : ι → ℝ) (hv : ∀ i, v i = normalize w0 i * ind d i) :
    DR.mean v ≠ 0 := by
  intro h
  have hne : (Fintype.card ι : ℝ) ≠ 0 := by
    have := hw.nonempty
    exact_mod_cast Fintype.card_ne_zero
  have := hw.norm.treated
  unfold DR.mean at h
  rw [div_eq_zero_iff, or_iff_left hne] at h
  have e : ∑ i, v i = ∑ i with d i = true, normalize w0 i := by
    rw [Finset.sum_filter]
    refine Finset.sum_congr rfl fun i _ => ?_
    rw [hv, ind]
    split_ifs <;> simp
  rw [e] at h
  exact this.ne' h

/-! ## C251 -/

section
variable (P : Measure Ω) (ols : OLS ι κ ℝ) (y1 y0 : Ω → ι → ℝ) (d : ι → Bool) (x : ι → κ → ℝ) (w : ι → ℝ) (β : κ → ℝ) (effect : ι → ℝ)
  (hw : BothArms w d) (hl : LinearTrends P y1 y0 d x β effect)
include hw hl

/-- **C251.**  `reg_did_panel` is unbiased for the weighted mean effect on the treated units, given covariates and treatment. -/
theorem C251_reg (hf : Fits ols (normalize w) (notB d) x) (hn : Fintype.card κ ≤ (Finset.univ.filter fun i => d i = false).card) :
    ∃ att : Ω → ℝ, (∀ ω, regDidPanel ols (y1 ω) (y0 ω) d x w = .ok (some (att ω))) ∧ Integrable att P ∧
      ∫ ω, att ω ∂P = wavg w (fun i => d i = true) effect := by
  have hr := residual_mean P ols (normalize w) y1 y0 d x β effect hf hl
  obtain ⟨h1, h2⟩ := wmean_integral P (fun i => normalize w i * ind d i) (fun ω i => (y1 ω i - y0 ω i) -
    fitted x (ols (normalize w) (notB d) x fun i => y1 ω i - y0 ω i) i) _ hr
  refine ⟨_, fun ω => ?_, h1, h2.trans ?_⟩
  · unfold regDidPanel
    rw [if_neg (by push Not; exact hw.nonneg)]
    dsimp only
    rw [if_neg (by push Not; intro _; exact hn), if_neg (mean_treated_ne w d hw _ fun _ => rfl), if_neg]
    · unfold regPanel wmean DR.mean
      rw [← sub_div, ← sub_div, ← Finset.sum_sub_distrib]
      simp only [mul_sub]
    · intro h0
      have := hw.control
      rw [Finset.card_eq_zero] at h0
      rw [h0] at this
      simp at this
  · rw [wmean_treated w d hw _ _ fun _ => rfl]
    unfold wavg
    congr 1
    exact Finset.sum_congr rfl fun i hi => by
      have h : d i = true := (Finset.mem_filter.1 hi).2
      simp only [h, if_true]

/-- **C251.**  `drdid_panel` is unbiased for the weighted mean effect on the treated units whatever the propensity model, as long as the trimmed
comparison group has weight. -/
theorem C251_dr (hf : Fits ols (normalize w) (notB d) x) (logit : Logit ι κ ℝ) (lo hi level : ℝ)
    (hc : DR.mean (wCont d (trim level d (clip lo hi (logit (normalize w) d x))) (clip lo hi (logit (normalize w) d x)) (normalize w)) ≠ 0) :
    ∃ att : Ω → ℝ, (∀ ω, drdidPanel ols logit lo hi level (y1 ω) (y0 ω) d x w = .ok (att ω)) ∧ Integrable att P ∧
      ∫ ω, att ω ∂P = wavg w (fun i => d i = true) effect := by
  have hr := residual_mean P ols (normalize w) y1 y0 d x β effect hf hl
  obtain ⟨ps, hps⟩ : ∃ ps, ps = clip lo hi (logit (normalize w) d x) := ⟨_, rfl⟩
  rw [← hps] at hc
  have hwt : ∀ i, wTreat d (trim level d ps) (normalize w) i = normalize w i * ind d i := by
    intro i
    unfold wTreat trim ind
    by_cases h : d i = true <;> simp [h]
  obtain ⟨h1, h2⟩ := wmean_integral P (wTreat d (trim level d ps) (normalize w)) (fun ω i => (y1 ω i - y0 ω i) -
    fitted x (ols (normalize w) (notB d) x fun i => y1 ω i - y0 ω i) i) _ hr
  obtain ⟨h3, h4⟩ := wmean_integral P (wCont d (trim level d ps) ps (normalize w)) (fun ω i => (y1 ω i - y0 ω i) -
    fitted x (ols (normalize w) (notB d) x fun i => y1 ω i - y0 ω i) i) _ hr
  have hz : wmean (wCont d (trim level d ps) ps (normalize w)) (fun i => if d i then effect i else 0) = 0 := by
    unfold wmean DR.mean
    rw [Finset.sum_eq_zero fun i _ => ?_, zero_div, zero_div]
    unfold wCont ind
    by_cases h : d i = true <;> simp [h]
  refine ⟨_, fun ω => ?_, h1.sub h3, ?_⟩
  · unfold drdidPanel
    rw [if_neg (by push Not; exact hw.nonneg)]
    dsimp only
    rw [← hps, if_neg, if_neg, if_neg (mean_treated_ne w d hw _ hwt), if_neg hc]
    · rfl
    · intro hno
      have := hw.control
      rw [Finset.filter_eq_empty_iff.2 fun i _ hi => hno ⟨i, hi⟩] at this
      simp at this
    · intro hno
      have := hw.treated
      rw [Finset.filter_eq_empty_iff.2 fun i _ hi => hno ⟨i, hi⟩] at this
      simp at this
  · refine (integral_sub h1 h3).trans ?_
    rw [h2, h4, hz, sub_zero, wmean_treated w d hw _ _ hwt]
    unfold wavg
    congr 1
    exact Finset.sum_congr rfl fun i hi => by
      have h : d i = true := (Finset.mem_filter.1 hi).2
      simp only [h, if_true]

/-- **C251.**  `drdid_imp_panel` is unbiased for the weighted mean effect on the treated units whatever the tilted scores. -/
theorem C251_imp (ipt : Logit ι κ ℝ) (lo hi level : ℝ)
    (hf : Fits ols (fun i => normalize w i * (clip lo hi (ipt (normalize w) d x) i / (1 - clip lo hi (ipt (normalize w) d x) i))) (notB d) x) :
    ∃ att : Ω → ℝ, (∀ ω, drdidImpPanel ols ipt lo hi level (y1 ω) (y0 ω) d x w = .ok (att ω)) ∧ Integrable att P ∧
      ∫ ω, att ω ∂P = wavg w (fun i => d i = true) effect := by
  obtain ⟨ps, hps⟩ : ∃ ps, ps = clip lo hi (ipt (normalize w) d x) := ⟨_, rfl⟩
  rw [← hps] at hf
  have hr := residual_mean P ols (fun i => normalize w i * (ps i / (1 - ps i))) y1 y0 d x β effect hf hl
  have key := sum_integral P Finset.univ (fun ω i => normalize w i * (ind (trim level d ps) i * (1 - (1 - ind d i) / (1 - ps i)) *
    ((y1 ω i - y0 ω i) - fitted x (ols (fun i => normalize w i * (ps i / (1 - ps i))) (notB d) x fun i => y1 ω i - y0 ω i) i)))
    fun i _ => ((hr i).1.const_mul _).const_mul _
  refine ⟨fun ω => impPanel d (trim level d ps) ps (fitted x (ols (fun i => normalize w i * (ps i / (1 - ps i))) (notB d) x
    fun i => y1 ω i - y0 ω i)) (fun i => y1 ω i - y0 ω i) (normalize w), fun ω => ?_, (key.1.div_const _).div_const _, ?_⟩
  · unfold drdidImpPanel
    rw [if_neg (by push Not; exact hw.nonneg)]
    dsimp only
    rw [← hps, if_neg]
    intro hno
    have := hw.control
    rw [Finset.filter_eq_empty_iff.2 fun i _ hi => hno ⟨i, hi⟩] at this
    simp at this
  · have e : ∫ ω, impPanel d (trim level d ps) ps (fitted x (ols (fun i => normalize w i * (ps i / (1 - ps i))) (notB d) x
        fun i => y1 ω i - y0 ω i)) (fun i => y1 ω i - y0 ω i) (normalize w) ∂P =
        (∑ i, normalize w i * (ind (trim level d ps) i * (1 - (1 - ind d i) / (1 - ps i)) * if d i then effect i else 0)) / Fintype.card ι /
          DR.mean fun i => ind d i * normalize w i := by
      unfold impPanel
      rw [integral_div]
      unfold DR.mean
      rw [integral_div, key.2]
      congr 2
      refine Finset.sum_congr rfl fun i _ => ?_
      rw [integral_const_mul, integral_const_mul, (hr i).2]
    rw [e, ← wmean_treated w d hw effect (fun i => ind d i * normalize w i) fun i => mul_comm _ _]
    unfold wmean DR.mean
    congr 2
    refine Finset.sum_congr rfl fun i _ => ?_
    unfold ind trim
    by_cases h : d i = true <;> simp [h]

end

/-! ## A case that meets the hypotheses -/

/-- A least-squares routine: solve the normal equations by inverting the Gram matrix. -/
noncomputable def gramOLS : OLS ι κ ℝ := fun w sel x y =>
  (Matrix.of fun k l => ∑ i with sel i = true, w i * x i k * x i l : Matrix κ κ ℝ)⁻¹.mulVec fun k => ∑ i with sel i = true, w i * y i * x i k

theorem gramOLS_fits (w : ι → ℝ) (sel : ι → Bool) (x : ι → κ → ℝ) (hr : FullRank w sel x) : Fits gramOLS w sel x := by
  refine ⟨fun y => ?_, hr⟩
  obtain ⟨Gm, hGm⟩ : ∃ G : Matrix κ κ ℝ, G = Matrix.of fun k l => ∑ i with sel i = true, w i * x i k * x i l := ⟨_, rfl⟩
  have hG : ∀ v : κ → ℝ, ∀ k, (Gm.mulVec v) k = ∑ i with sel i = true, w i * (∑ l, x i l * v l) * x i k := by
    intro v k
    simp only [hGm, Matrix.mulVec, dotProduct, Matrix.of_apply, Finset.sum_mul]
    rw [Finset.sum_comm]
    refine Finset.sum_congr rfl fun i _ => ?_
    rw [Finset.mul_sum, Finset.sum_mul]
    exact Finset.sum_congr rfl fun l _ => by ring
  have hu : IsUnit Gm := by
    rw [← Matrix.mulVec_injective_iff_isUnit]
    intro a b hab
    have : Gm.mulVec (a - b) = 0 := by rw [Matrix.mulVec_sub, sub_eq_zero]; exact hab
    have h0 := hr (a - b) fun k => by rw [← hG]; exact congrFun this k
    exact sub_eq_zero.1 h0
  have hdet := (Matrix.isUnit_iff_isUnit_det Gm).1 hu
  have hs : Gm.mulVec (gramOLS w sel x y) = fun k => ∑ i with sel i = true, w i * y i * x i k := by
    unfold gramOLS
    rw [← hGm, Matrix.mulVec_mulVec, Matrix.mul_nonsing_inv _ hdet, Matrix.one_mulVec]
  intro k
  have := (hG (gramOLS w sel x y) k).symm.trans (congrFun hs k)
  simp only [mul_sub, sub_mul, Finset.sum_sub_distrib, sub_eq_zero]
  exact this.symm

/-- Two comparison and two treated units, one covariate and an intercept, effects 4 and 8, a fair-coin shock. -/
def gD : Fin 4 → Bool := ![false, false, true, true]
def gX : Fin 4 → Fin 2 → ℝ := ![![1, 0], ![1, 1], ![1, 2], ![1, 3]]
def gW : Fin 4 → ℝ := ![1, 2, 1, 3]
def gEff : Fin 4 → ℝ := ![0, 0, 4, 8]
def gY0 (e : ℝ) (i : Fin 4) : ℝ := 3 + e * gX i 1
noncomputable def gY1 (e : ℝ) (i : Fin 4) : ℝ := 3 + 5 * gX i 0 + 7 * gX i 1 + gEff i - e * gW i

theorem g_vals : (gD 0 = false ∧ gD 1 = false ∧ gD 2 = true ∧ gD 3 = true) ∧ (gW 0 = 1 ∧ gW 1 = 2 ∧ gW 2 = 1 ∧ gW 3 = 3) ∧
    (gEff 0 = 0 ∧ gEff 1 = 0 ∧ gEff 2 = 4 ∧ gEff 3 = 8) := ⟨⟨rfl, rfl, rfl, rfl⟩, ⟨rfl, rfl, rfl, rfl⟩, ⟨rfl, rfl, rfl, rfl⟩⟩

theorem g_arms : BothArms gW gD where
  nonneg := by intro i; fin_cases i <;> simp [gW]
  treated := by rw [Finset.sum_filter, Fin.sum_univ_four]; norm_num [g_vals]
  control := by rw [Finset.sum_filter, Fin.sum_univ_four]; norm_num [g_vals]

theorem g_trends : LinearTrends coin gY1 gY0 gD gX ![5, 7] gEff where
  int1 := fun i => (coin_int _).1
  int0 := fun i => (coin_int _).1
  mean := by
    intro i
    rw [(coin_int _).2, (coin_int _).2]
    fin_cases i <;> simp [gY1, gY0, gX, gW, gEff, gD, Fin.sum_univ_two] <;> norm_num

theorem g_rank (w : Fin 4 → ℝ) (h0 : w 0 ≠ 0) (h1 : w 1 ≠ 0) : FullRank w (notB gD) gX := by
  intro v hv
  have a := hv 0
  have b := hv 1
  simp [notB, gD, gX, Finset.sum_filter, Fin.sum_univ_four, Fin.sum_univ_two, h1] at a b
  have c : v 0 = 0 := by
    rw [b] at a
    simpa [h0] using a
  funext k
  fin_cases k
  · exact c
  · show v 1 = 0
    linarith

theorem g_norm (i : Fin 4) : normalize gW i ≠ 0 := by
  have : DR.mean gW = 7 / 4 := by simp [DR.mean, gW, Fin.sum_univ_four]; norm_num
  rw [DR.normalize, this]
  fin_cases i <;> simp [gW]

theorem g_target : wavg gW (fun i => gD i = true) gEff = 7 := by
  rw [wavg, Finset.sum_filter, Finset.sum_filter, Fin.sum_univ_four, Fin.sum_univ_four]; norm_num [g_vals]

example : ∃ att : ℝ → ℝ, (∀ e, regDidPanel gramOLS (gY1 e) (gY0 e) gD gX gW = .ok (some (att e))) ∧ Integrable att coin ∧ ∫ e, att e ∂coin = 7 :=
  g_target ▸ C251_reg coin gramOLS gY1 gY0 gD gX gW _ gEff g_arms g_trends (gramOLS_fits _ _ _ (g_rank _ (g_norm 0) (g_norm 1))) (by decide)

example : ∃ att : ℝ → ℝ, (∀ e, drdidPanel gramOLS (fun _ _ _ _ => 1 / 2) (1 / 10) (9 / 10) (9 / 10) (gY1 e) (gY0 e) gD gX gW = .ok (att e)) ∧
    Integrable att coin ∧ ∫ e, att e ∂coin = 7 := by
  refine g_target ▸ C251_dr coin gramOLS gY1 gY0 gD gX gW _ gEff g_arms g_trends (gramOLS_fits _ _ _ (g_rank _ (g_norm 0) (g_norm 1))) _ _ _ _ ?_
  have hm : DR.mean gW = 7 / 4 := by simp [DR.mean, gW, Fin.sum_univ_four]; norm_num
  have hc : clip (1 / 10 : ℝ) (9 / 10) (fun _ : Fin 4 => 1 / 2) = fun _ => 1 / 2 := by
    funext i
    unfold clip
    norm_num
  rw [hc, DR.mean, Fin.sum_univ_four]
  simp [wCont, trim, ind, gD, DR.normalize, hm]
  simp [gW]
  norm_num

example : ∃ att : ℝ → ℝ, (∀ e, drdidImpPanel gramOLS (fun _ _ _ _ => 1 / 2) (1 / 10) (9 / 10) (9 / 10) (gY1 e) (gY0 e) gD gX gW = .ok (att e)) ∧
    Integrable att coin ∧ ∫ e, att e ∂coin = 7 := by
  have hc : clip (1 / 10 : ℝ) (9 / 10) (fun _ : Fin 4 => 1 / 2) = fun _ => 1 / 2 := by
    funext i
    unfold clip
    norm_num
  refine g_target ▸ C251_imp coin gramOLS gY1 gY0 gD gX gW _ gEff g_arms g_trends _ _ _ _ (gramOLS_fits _ _ _ (g_rank _ ?_ ?_))
  · rw [hc]; norm_num [g_norm]
  · rw [hc]; norm_num [g_norm]

end Verif.Ident
