import Verif.Ident.Reg

set_option linter.unusedSectionVars false
set_option linter.unusedSimpArgs false
set_option linter.unusedVariables false

/-!
# C256: two-period estimators on repeated cross-sections when the outcome model is linear

Covariates, period, treatment and weights are fixed, the outcomes are random.
-/

namespace Verif.Ident

open Verif.DR MeasureTheory

variable {ι κ Ω : Type*} [Fintype ι] [Fintype κ] [DecidableEq κ] [MeasurableSpace Ω]

/-! ## Specification -/

/-- Conditional parallel trends with a linear model: untreated mean outcomes are `x · β0` before and `x · β1` after in the comparison group, the
treated group differs from it by `x · α` in both periods, and the effect of treatment is `x · τ`. -/
structure LinearCells (P : Measure Ω) (y : Ω → ι → ℝ) (d post : ι → Bool) (x : ι → κ → ℝ) (β0 β1 α τ : κ → ℝ) : Prop where
  int : ∀ i, Integrable (fun ω => y ω i) P
  mean : ∀ i, ∫ ω, y ω i ∂P = ∑ k, x i k * ((if post i then β1 k else β0 k) + (if d i then α k else 0) + if d i && post i then τ k else 0)

/-- Every group has weight in every period. -/
structure FourCells (w : ι → ℝ) (d post : ι → Bool) : Prop where
  nonneg : ∀ i, 0 ≤ w i
  pos : ∀ pre treat, 0 < ∑ i with cellSel d post pre treat i = true, w i

/-- Least squares is well posed in the cells whose regressions are used. -/
def FitsCells (ols : OLS ι κ ℝ) (w : ι → ℝ) (d post : ι → Bool) (x : ι → κ → ℝ) (treat : Bool) : Prop :=
  ∀ pre, Fits ols w (cellSel d post pre treat) x

/-- The treated group has the same covariate means in both periods. -/
def StableTreated (w : ι → ℝ) (d post : ι → Bool) (x : ι → κ → ℝ) : Prop :=
  ∀ k, wavg w (fun i => cellSel d post false true i = true) (fun i => x i k) = wavg w (fun i => cellSel d post true true i = true) fun i => x i k

/-! ## Lemmas -/

theorem wmean_sel (w0 : ι → ℝ) (hw : ∀ i, 0 ≤ w0 i) (sel : ι → Bool) (hp : 0 < ∑ i with sel i = true, w0 i) (f v : ι → ℝ)
    (c : ℝ) (hmean : c ≠ 0) (hv : ∀ i, v i = w0 i / c * if sel i then 1 else 0) : wmean v f = wavg w0 (fun i => sel i = true) f ∧ DR.mean v ≠ 0 := by
  have hnon : Nonempty ι := by
    by_contra hno
    rw [not_nonempty_iff] at hno
    simp at hp
  have hne : (Fintype.card ι : ℝ) ≠ 0 := by exact_mod_cast Fintype.card_ne_zero
  have e : ∀ g : ι → ℝ, DR.mean (fun i => v i * g i) = (∑ i with sel i = true, w0 i * g i) / c / Fintype.card ι := by
    intro g
    unfold DR.mean
    congr 1
    rw [Finset.sum_filter, Finset.sum_div]
    refine Finset.sum_congr rfl fun i _ => ?_
    dsimp only
    rw [hv]
    by_cases h : sel i = true
    · simp [h]; ring
    · simp [h]
  have e1 : DR.mean v = (∑ i with sel i = true, w0 i) / c / Fintype.card ι := by
    have := e fun _ => 1
    simpa using this
  constructor
  · unfold wmean wavg
    rw [e f, e1, div_div_div_cancel_right₀ hne, div_div_div_cancel_right₀ hmean]
  · rw [e1]
    exact div_ne_zero (div_ne_zero hp.ne' hmean) hne

theorem hmean_eq_wmean (w v : ι → ℝ) : hmean w v = wmean w v := by
  unfold hmean wmean DR.mean
  rw [div_div, mul_comm (Fintype.card ι : ℝ), ← div_div, ← Finset.sum_div]

theorem hmean_integral (P : Measure Ω) (w : ι → ℝ) (r : Ω → ι → ℝ) (m : ι → ℝ) (h : ∀ i, Integrable (fun ω => r ω i) P ∧ ∫ ω, r ω i ∂P = m i) :
    Integrable (fun ω => hmean w (r ω)) P ∧ ∫ ω, hmean w (r ω) ∂P = wmean w m := by
  simp only [hmean_eq_wmean]
  exact wmean_integral P w r m h

theorem wmean_congr (w f g : ι → ℝ) (h : ∀ i, w i ≠ 0 → f i = g i) : wmean w f = wmean w g := by
  unfold wmean DR.mean
  congr 2
  refine Finset.sum_congr rfl fun i _ => ?_
  by_cases hw : w i = 0
  · simp [hw]
  · dsimp only
    rw [h i hw]

theorem wmean_sub (w f g : ι → ℝ) : wmean w (fun i => f i - g i) = wmean w f - wmean w g := by
  unfold wmean DR.mean
  rw [← sub_div, ← sub_div, ← Finset.sum_sub_distrib]
  simp only [mul_sub]

theorem wavg_dot (w : ι → ℝ) (S : ι → Prop) [DecidablePred S] (x : ι → κ → ℝ) (b : κ → ℝ) :
    wavg w S (fun i => ∑ k, x i k * b k) = ∑ k, wavg w S (fun i => x i k) * b k := by
  unfold wavg
  simp only [div_mul_eq_mul_div]
  rw [← Finset.sum_div]
  congr 1
  simp only [Finset.mul_sum, Finset.sum_mul]
  rw [Finset.sum_comm]
  exact Finset.sum_congr rfl fun k _ => Finset.sum_congr rfl fun i _ => by ring

section
variable (P : Measure Ω) (ols : OLS ι κ ℝ) (y : Ω → ι → ℝ) (d post : ι → Bool) (x : ι → κ → ℝ) (w : ι → ℝ) (β0 β1 α τ : κ → ℝ)
  (hw : FourCells w d post) (hl : LinearCells P y d post x β0 β1 α τ)
include hw hl

/-- Coefficients of one cell. -/
def cellCoef (β0 β1 α τ : κ → ℝ) (pre treat : Bool) (k : κ) : ℝ :=
  (if pre then β0 k else β1 k) + (if treat then α k else 0) + if treat && !pre then τ k else 0

theorem cell_fit (treat pre : Bool) (v : ι → ℝ) (hf : Fits ols v (cellSel d post pre treat) x) (i : ι) :
    Integrable (fun ω => fitted x (ols v (cellSel d post pre treat) x (y ω)) i) P ∧
      ∫ ω, fitted x (ols v (cellSel d post pre treat) x (y ω)) i ∂P = ∑ k, x i k * cellCoef β0 β1 α τ pre treat k := by
  refine fitted_mean P x (fun ω => ols v (cellSel d post pre treat) x (y ω)) _ (fun k => ols_mean P ols v _ x hf y hl.int _ ?_ k) i
  intro i hi
  rw [hl.mean i]
  simp only [cellSel, Bool.and_eq_true, beq_iff_eq] at hi
  refine Finset.sum_congr rfl fun k _ => ?_
  rw [hi.1, hi.2]
  unfold cellCoef
  cases pre <;> cases treat <;> simp

theorem checks_ok : rcChecks d post w = true := by
  have hex : ∀ pre treat, ∃ i, d i = treat ∧ post i = !pre := by
    intro pre treat
    by_contra hno
    have := hw.pos pre treat
    rw [Finset.filter_eq_empty_iff.2 fun i _ hi => hno ⟨i, by simpa [cellSel] using hi⟩] at this
    simp at this
  obtain ⟨a, ha, ha'⟩ := hex true true
  obtain ⟨b, hb, hb'⟩ := hex false false
  unfold rcChecks
  rw [decide_eq_true_eq]
  exact ⟨fun ⟨i, hi⟩ => absurd hi (not_lt.2 (hw.nonneg i)), ⟨a, ha⟩, ⟨b, hb⟩, ⟨b, by simpa using hb'⟩, ⟨a, by simpa using ha'⟩⟩

theorem treated_pos : 0 < ∑ i with d i = true, w i := by
  refine lt_of_lt_of_le (hw.pos true true) (Finset.sum_le_sum_of_subset_of_nonneg ?_ fun i _ _ => hw.nonneg i)
  intro i hi
  simp only [cellSel, Finset.mem_filter, Finset.mem_univ, true_and, Bool.and_eq_true, beq_iff_eq] at hi ⊢
  exact hi.1

/-- The mean of the weights. -/
theorem mean_ne : DR.mean w ≠ 0 := by
  have hp := treated_pos P y d post x w β0 β1 α τ hw hl
  have hsum : 0 < ∑ i, w i :=
    lt_of_lt_of_le hp (Finset.sum_le_sum_of_subset_of_nonneg (Finset.filter_subset _ _) fun i _ _ => hw.nonneg i)
  have hnon : Nonempty ι := by
    by_contra hno
    rw [not_nonempty_iff] at hno
    simp at hp
  exact div_ne_zero hsum.ne' (by exact_mod_cast Fintype.card_ne_zero)

/-- Weights of the treated observations of one period. -/
theorem cell_weight (v : ι → ℝ) (c : ℝ) (hc : c ≠ 0) (hv : ∀ i, v i = w i / c) (tr : ι → Bool) (htr : ∀ i, d i = true → tr i = true) (pre : Bool) (f : ι → ℝ) :
    wmean (wTreatRC d tr (v) (if pre then preK post else postK post)) f = wavg w (fun i => cellSel d post pre true i = true) f := by
  refine (wmean_sel w hw.nonneg (cellSel d post pre true) (hw.pos pre true) f _ c hc fun i => ?_).1
  unfold wTreatRC ind cellSel
  rw [hv]
  by_cases hd : d i = true
  · have := htr i hd
    cases pre <;> by_cases hp : post i = true <;> simp [hd, hp, this, preK, postK, ind]
  · simp [hd]

theorem residual_rc (v : ι → ℝ) (hf : FitsCells ols (v) d post x false) (i : ι) :
    Integrable (fun ω => y ω i - (postK post i * fitted x (ols (v) (cellSel d post false false) x (y ω)) i +
      (1 - postK post i) * fitted x (ols (v) (cellSel d post true false) x (y ω)) i)) P ∧
    ∫ ω, (y ω i - (postK post i * fitted x (ols (v) (cellSel d post false false) x (y ω)) i +
      (1 - postK post i) * fitted x (ols (v) (cellSel d post true false) x (y ω)) i)) ∂P =
      (if d i then ∑ k, x i k * α k else 0) + if d i && post i then ∑ k, x i k * τ k else 0 := by
  obtain ⟨a1, a2⟩ := cell_fit P ols y d post x w β0 β1 α τ hw hl false false _ (hf false) i
  obtain ⟨b1, b2⟩ := cell_fit P ols y d post x w β0 β1 α τ hw hl false true _ (hf true) i
  refine ⟨(hl.int i).sub ((a1.const_mul _).add (b1.const_mul _)), ?_⟩
  refine (integral_sub (hl.int i) ((a1.const_mul _).add (b1.const_mul _))).trans ?_
  rw [integral_add' (a1.const_mul (postK post i)) (b1.const_mul (1 - postK post i)), integral_const_mul, integral_const_mul, a2, b2, hl.mean i]
  unfold cellCoef postK ind
  by_cases hp : post i = true <;> by_cases hd : d i = true <;> simp [hp, hd, mul_add, Finset.sum_add_distrib] <;> ring

/-- Expectation of the comparison part: zero. -/
theorem cont_zero (v : ι → ℝ) (tr : ι → Bool) (ps q : ι → ℝ) (f g : ι → ℝ) :
    wmean (wContRC d tr ps (v) q) (fun i => (if d i then f i else 0) + if d i && post i then g i else 0) = 0 := by
  unfold wmean DR.mean
  rw [Finset.sum_eq_zero fun i _ => ?_, zero_div, zero_div]
  unfold wContRC ind
  by_cases h : d i = true <;> simp [h]

theorem trad_mean (v : ι → ℝ) (c : ℝ) (hc : c ≠ 0) (hv : ∀ i, v i = w i / c) (hf : FitsCells ols (v) d post x false) (tr : ι → Bool) (htr : ∀ i, d i = true → tr i = true) (ps : ι → ℝ) :
    Integrable (fun ω => tradRC d tr post ps (fitted x (ols (v) (cellSel d post true false) x (y ω)))
      (fitted x (ols (v) (cellSel d post false false) x (y ω))) (y ω) (v)) P ∧
    ∫ ω, tradRC d tr post ps (fitted x (ols (v) (cellSel d post true false) x (y ω)))
      (fitted x (ols (v) (cellSel d post false false) x (y ω))) (y ω) (v) ∂P =
      wavg w (fun i => cellSel d post false true i = true) (fun i => ∑ k, x i k * (α k + τ k)) -
        wavg w (fun i => cellSel d post true true i = true) (fun i => ∑ k, x i k * α k) := by
  have hr := residual_rc P ols y d post x w β0 β1 α τ hw hl v hf
  have hm := fun v => hmean_integral P v _ _ hr
  obtain ⟨a1, a2⟩ := hm (wTreatRC d tr (v) (postK post))
  obtain ⟨b1, b2⟩ := hm (wTreatRC d tr (v) (preK post))
  obtain ⟨c1, c2⟩ := hm (wContRC d tr ps (v) (postK post))
  obtain ⟨e1, e2⟩ := hm (wContRC d tr ps (v) (preK post))
  refine ⟨(a1.sub b1).sub (c1.sub e1), ?_⟩
  unfold tradRC
  refine (integral_sub (a1.sub b1) (c1.sub e1)).trans ?_
  rw [integral_sub' a1 b1, integral_sub' c1 e1, a2, b2, c2, e2, cont_zero P y d post x w β0 β1 α τ hw hl v, cont_zero P y d post x w β0 β1 α τ hw hl v,
    sub_zero, sub_zero]
  have h1 := cell_weight P y d post x w β0 β1 α τ hw hl v c hc hv tr htr false
  have h0 := cell_weight P y d post x w β0 β1 α τ hw hl v c hc hv tr htr true
  simp only [Bool.false_eq_true, if_false, if_true] at h1 h0
  rw [h1, h0]
  unfold wavg
  congr 2
  · refine Finset.sum_congr rfl fun i hi => ?_
    have := (Finset.mem_filter.1 hi).2
    simp only [cellSel, Bool.and_eq_true, beq_iff_eq] at this
    simp [this.1, this.2, mul_add, Finset.sum_add_distrib]
  · refine Finset.sum_congr rfl fun i hi => ?_
    have := (Finset.mem_filter.1 hi).2
    simp only [cellSel, Bool.and_eq_true, beq_iff_eq] at this
    simp [this.1, this.2]

/-- Means over all treated observations. -/
theorem all_treated (v : ι → ℝ) (c : ℝ) (hc : c ≠ 0) (hv : ∀ i, v i = w i / c) (tr : ι → Bool) (htr : ∀ i, d i = true → tr i = true) (f : ι → ℝ) :
    wmean (fun i => ind tr i * v i * ind d i) f = wavg w (fun i => d i = true) f := by
  refine (wmean_sel w hw.nonneg d (treated_pos P y d post x w β0 β1 α τ hw hl) f _ c hc fun i => ?_).1
  unfold ind
  rw [hv]
  by_cases hd : d i = true
  · simp [hd, htr i hd]
  · simp [hd]

theorem efficient_mean (v : ι → ℝ) (c : ℝ) (hc : c ≠ 0) (hv : ∀ i, v i = w i / c) (hf : FitsCells ols v d post x false)
    (hft : FitsCells ols v d post x true) (tr : ι → Bool) (htr' : ∀ i, d i = true → tr i = true) (ps : ι → ℝ) :
    Integrable (fun ω => drRC d tr post ps (fitted x (ols v (cellSel d post true false) x (y ω))) (fitted x (ols v (cellSel d post false false) x (y ω)))
      (fitted x (ols v (cellSel d post true true) x (y ω))) (fitted x (ols v (cellSel d post false true) x (y ω))) (y ω) v) P ∧
    ∫ ω, drRC d tr post ps (fitted x (ols v (cellSel d post true false) x (y ω))) (fitted x (ols v (cellSel d post false false) x (y ω)))
      (fitted x (ols v (cellSel d post true true) x (y ω))) (fitted x (ols v (cellSel d post false true) x (y ω))) (y ω) v ∂P =
      wavg w (fun i => d i = true) fun i => ∑ k, x i k * τ k := by
  obtain ⟨a1, a2⟩ := trad_mean P ols y d post x w β0 β1 α τ hw hl v c hc hv hf tr htr' ps
  have hdiff : ∀ pre i, Integrable (fun ω => fitted x (ols (v) (cellSel d post pre true) x (y ω)) i -
      fitted x (ols (v) (cellSel d post pre false) x (y ω)) i) P ∧
      ∫ ω, (fitted x (ols (v) (cellSel d post pre true) x (y ω)) i -
      fitted x (ols (v) (cellSel d post pre false) x (y ω)) i) ∂P = ∑ k, x i k * (α k + if pre then 0 else τ k) := by
    intro pre i
    obtain ⟨u1, u2⟩ := cell_fit P ols y d post x w β0 β1 α τ hw hl true pre _ (hft pre) i
    obtain ⟨v1, v2⟩ := cell_fit P ols y d post x w β0 β1 α τ hw hl false pre _ (hf pre) i
    refine ⟨u1.sub v1, ?_⟩
    rw [integral_sub u1 v1, u2, v2, ← Finset.sum_sub_distrib]
    refine Finset.sum_congr rfl fun k _ => ?_
    unfold cellCoef
    cases pre <;> simp <;> ring
  obtain ⟨wd, hwd⟩ : ∃ wd : ι → ℝ, wd = fun i => ind tr i * v i * ind d i := ⟨_, rfl⟩
  obtain ⟨p1, p2⟩ := hmean_integral P wd _ _ (hdiff false)
  obtain ⟨q1, q2⟩ := hmean_integral P (wTreatRC d tr (v) (postK post)) _ _ (hdiff false)
  obtain ⟨r1, r2⟩ := hmean_integral P wd _ _ (hdiff true)
  obtain ⟨s1, s2⟩ := hmean_integral P (wTreatRC d tr (v) (preK post)) _ _ (hdiff true)
  rw [hwd] at p1 p2 r1 r2
  refine ⟨(a1.add (p1.sub q1)).sub (r1.sub s1), ?_⟩
  refine (integral_sub (a1.add (p1.sub q1)) (r1.sub s1)).trans ?_
  have e1 : ∀ {f g : Ω → ℝ}, Integrable f P → Integrable g P → ∫ ω, (f + g) ω ∂P = ∫ ω, f ω ∂P + ∫ ω, g ω ∂P := fun hf hg => integral_add' hf hg
  rw [e1 a1 (p1.sub q1), integral_sub' p1 q1, integral_sub' r1 s1, a2, p2, q2, r2, s2]
  have h1 := cell_weight P y d post x w β0 β1 α τ hw hl v c hc hv tr htr' false
  have h0 := cell_weight P y d post x w β0 β1 α τ hw hl v c hc hv tr htr' true
  have h2 := all_treated P y d post x w β0 β1 α τ hw hl v c hc hv tr htr'
  simp only [Bool.false_eq_true, if_false, if_true] at h1 h0
  rw [h1, h0, h2, h2]
  simp only [Bool.false_eq_true, if_false, if_true, add_zero, wavg_dot]
  simp only [mul_add, Finset.sum_add_distrib]
  ring

/-- **C256.**  `drdid_trad_rc`: its mean is the mean of `x · (α + τ)` over the treated observed after minus the mean of `x · α` over those observed
before; the scores do not matter. -/
theorem C256_trad (hf : FitsCells ols (DR.normalize w) d post x false) (logit : Logit ι κ ℝ) (lo hi level : ℝ) :
    ∃ att : Ω → ℝ, (∀ ω, drdidTradRC ols logit lo hi level (y ω) post d x w = some (att ω)) ∧ Integrable att P ∧
      ∫ ω, att ω ∂P = wavg w (fun i => cellSel d post false true i = true) (fun i => ∑ k, x i k * (α k + τ k)) -
        wavg w (fun i => cellSel d post true true i = true) (fun i => ∑ k, x i k * α k) := by
  obtain ⟨a1, a2⟩ := trad_mean P ols y d post x w β0 β1 α τ hw hl (DR.normalize w) (DR.mean w) (mean_ne P y d post x w β0 β1 α τ hw hl) (fun _ => rfl) hf (trim level d (clip lo hi (logit (DR.normalize w) d x)))
    (fun i hi => by unfold trim; simp [hi]) (clip lo hi (logit (DR.normalize w) d x))
  refine ⟨_, fun ω => ?_, a1, a2⟩
  unfold drdidTradRC
  rw [if_pos (checks_ok P y d post x w β0 β1 α τ hw hl)]

/-- **C256.**  `drdid_rc` (locally efficient) is unbiased for the mean effect on all treated observations, of both periods, whatever the scores and
whatever the covariates of the treated in the two periods. -/
theorem C256_efficient (hf : FitsCells ols (DR.normalize w) d post x false) (hft : FitsCells ols (DR.normalize w) d post x true)
    (logit : Logit ι κ ℝ) (lo hi level : ℝ) :
    ∃ att : Ω → ℝ, (∀ ω, drdidRC ols logit lo hi level (y ω) post d x w = some (att ω)) ∧ Integrable att P ∧
      ∫ ω, att ω ∂P = wavg w (fun i => d i = true) fun i => ∑ k, x i k * τ k := by
  obtain ⟨a1, a2⟩ := efficient_mean P ols y d post x w β0 β1 α τ hw hl (DR.normalize w) (DR.mean w) (mean_ne P y d post x w β0 β1 α τ hw hl)
    (fun _ => rfl) hf hft (trim level d (clip lo hi (logit (DR.normalize w) d x))) (fun i hi => by unfold trim; simp [hi])
    (clip lo hi (logit (DR.normalize w) d x))
  refine ⟨_, fun ω => ?_, a1, a2⟩
  unfold drdidRC
  rw [if_pos (checks_ok P y d post x w β0 β1 α τ hw hl)]

/-- **C256.**  `reg_did_rc`: its mean. -/
theorem C256_reg (hf : FitsCells ols (DR.normalize w) d post x false) :
    ∃ att : Ω → ℝ, (∀ ω, regDidRC ols (y ω) post d x w = some (att ω)) ∧ Integrable att P ∧
      ∫ ω, att ω ∂P = wavg w (fun i => cellSel d post false true i = true) (fun i => ∑ k, x i k * (β1 k + α k + τ k)) -
        wavg w (fun i => cellSel d post true true i = true) (fun i => ∑ k, x i k * (β0 k + α k)) -
        wavg w (fun i => d i = true) (fun i => ∑ k, x i k * (β1 k - β0 k)) := by
  have hy : ∀ i, Integrable (fun ω => y ω i) P ∧ ∫ ω, y ω i ∂P = _ := fun i => ⟨hl.int i, hl.mean i⟩
  have hdiff : ∀ i, Integrable (fun ω => fitted x (ols (DR.normalize w) (cellSel d post false false) x (y ω)) i -
      fitted x (ols (DR.normalize w) (cellSel d post true false) x (y ω)) i) P ∧
      ∫ ω, (fitted x (ols (DR.normalize w) (cellSel d post false false) x (y ω)) i -
      fitted x (ols (DR.normalize w) (cellSel d post true false) x (y ω)) i) ∂P = ∑ k, x i k * (β1 k - β0 k) := by
    intro i
    obtain ⟨u1, u2⟩ := cell_fit P ols y d post x w β0 β1 α τ hw hl false false _ (hf false) i
    obtain ⟨v1, v2⟩ := cell_fit P ols y d post x w β0 β1 α τ hw hl false true _ (hf true) i
    refine ⟨u1.sub v1, ?_⟩
    rw [integral_sub u1 v1, u2, v2, ← Finset.sum_sub_distrib]
    refine Finset.sum_congr rfl fun k _ => ?_
    unfold cellCoef
    simp
    ring
  obtain ⟨a1, a2⟩ := wmean_integral P (fun i => DR.normalize w i * ind d i * postK post i) y _ hy
  obtain ⟨b1, b2⟩ := wmean_integral P (fun i => DR.normalize w i * ind d i * preK post i) y _ hy
  obtain ⟨c1, c2⟩ := wmean_integral P (fun i => DR.normalize w i * ind d i) _ _ hdiff
  refine ⟨_, fun ω => ?_, (a1.sub b1).sub c1, ?_⟩
  · unfold regDidRC
    rw [if_pos (checks_ok P y d post x w β0 β1 α τ hw hl)]
    rfl
  · refine (integral_sub (a1.sub b1) c1).trans ?_
    rw [integral_sub' a1 b1, a2, b2, c2]
    have h1 := cell_weight P y d post x w β0 β1 α τ hw hl (DR.normalize w) (DR.mean w) (mean_ne P y d post x w β0 β1 α τ hw hl) (fun _ => rfl) (fun _ => true) (fun _ _ => rfl) false
    have h0 := cell_weight P y d post x w β0 β1 α τ hw hl (DR.normalize w) (DR.mean w) (mean_ne P y d post x w β0 β1 α τ hw hl) (fun _ => rfl) (fun _ => true) (fun _ _ => rfl) true
    have h2 := all_treated P y d post x w β0 β1 α τ hw hl (DR.normalize w) (DR.mean w) (mean_ne P y d post x w β0 β1 α τ hw hl) (fun _ => rfl) (fun _ => true) (fun _ _ => rfl)
    have ew : ∀ q : ι → ℝ, (fun i => DR.normalize w i * ind d i * q i) = wTreatRC d (fun _ => true) (DR.normalize w) q := by
      intro q
      funext i
      simp [wTreatRC, ind]
    have ea : (fun i => DR.normalize w i * ind d i) = fun i => ind (fun _ => true) i * DR.normalize w i * ind d i := by
      funext i
      simp [ind]
    simp only [Bool.false_eq_true, if_false, if_true] at h1 h0
    rw [ew, ew, ea, h1, h0, h2]
    unfold wavg
    congr 3
    · refine Finset.sum_congr rfl fun i hi => ?_
      have := (Finset.mem_filter.1 hi).2
      simp only [cellSel, Bool.and_eq_true, beq_iff_eq] at this
      simp [this.1, this.2]
    · refine Finset.sum_congr rfl fun i hi => ?_
      have := (Finset.mem_filter.1 hi).2
      simp only [cellSel, Bool.and_eq_true, beq_iff_eq] at this
      simp [this.1, this.2]

theorem stable_mean (hs : StableTreated w d post x) (b : κ → ℝ) (pre : Bool) :
    wavg w (fun i => cellSel d post pre true i = true) (fun i => ∑ k, x i k * b k) = wavg w (fun i => d i = true) fun i => ∑ k, x i k * b k := by
  have key : ∀ k, wavg w (fun i => cellSel d post pre true i = true) (fun i => x i k) = wavg w (fun i => d i = true) fun i => x i k := by
    intro k
    have hsplit : ∀ f : ι → ℝ, ∑ i with d i = true, f i =
        ∑ i with cellSel d post false true i = true, f i + ∑ i with cellSel d post true true i = true, f i := by
      intro f
      rw [Finset.sum_filter, Finset.sum_filter, Finset.sum_filter, ← Finset.sum_add_distrib]
      refine Finset.sum_congr rfl fun i _ => ?_
      unfold cellSel
      by_cases hd : d i = true <;> by_cases hp : post i = true <;> simp [hd, hp]
    have h := hs k
    have p1 := hw.pos false true
    have p0 := hw.pos true true
    have e : wavg w (fun i => d i = true) (fun i => x i k) = wavg w (fun i => cellSel d post true true i = true) fun i => x i k := by
      unfold wavg at h ⊢
      rw [div_eq_div_iff p1.ne' p0.ne'] at h
      rw [hsplit, hsplit, div_eq_div_iff (by positivity) p0.ne']
      linarith
    cases pre
    · rw [e, h]
    · rw [e]
  rw [wavg_dot, wavg_dot]
  exact Finset.sum_congr rfl fun k _ => by rw [key k]

/-- **C256.**  If the covariate means of the treated are the same in both periods, `drdid_trad_rc` is unbiased for the mean effect on the treated. -/
theorem C256_trad_stable (hs : StableTreated w d post x) (hf : FitsCells ols (DR.normalize w) d post x false) (logit : Logit ι κ ℝ)
    (lo hi level : ℝ) : ∃ att : Ω → ℝ, (∀ ω, drdidTradRC ols logit lo hi level (y ω) post d x w = some (att ω)) ∧ Integrable att P ∧
      ∫ ω, att ω ∂P = wavg w (fun i => d i = true) fun i => ∑ k, x i k * τ k := by
  obtain ⟨att, h1, h2, h3⟩ := C256_trad P ols y d post x w β0 β1 α τ hw hl hf logit lo hi level
  refine ⟨att, h1, h2, ?_⟩
  rw [h3, stable_mean P y d post x w β0 β1 α τ hw hl hs (fun k => α k + τ k), stable_mean P y d post x w β0 β1 α τ hw hl hs α]
  simp only [wavg_dot]
  simp only [mul_add, Finset.sum_add_distrib]
  ring

/-- **C256.**  If the covariate means of the treated are the same in both periods, `reg_did_rc` is unbiased for the mean effect on the treated. -/
theorem C256_reg_stable (hs : StableTreated w d post x) (hf : FitsCells ols (DR.normalize w) d post x false) :
    ∃ att : Ω → ℝ, (∀ ω, regDidRC ols (y ω) post d x w = some (att ω)) ∧ Integrable att P ∧
      ∫ ω, att ω ∂P = wavg w (fun i => d i = true) fun i => ∑ k, x i k * τ k := by
  obtain ⟨att, h1, h2, h3⟩ := C256_reg P ols y d post x w β0 β1 α τ hw hl hf
  refine ⟨att, h1, h2, ?_⟩
  rw [h3, stable_mean P y d post x w β0 β1 α τ hw hl hs (fun k => β1 k + α k + τ k),
    stable_mean P y d post x w β0 β1 α τ hw hl hs (fun k => β0 k + α k)]
  simp only [wavg_dot]
  simp only [mul_add, mul_sub, Finset.sum_add_distrib, Finset.sum_sub_distrib]
  ring

end

/-! ## A case that meets the hypotheses, and one with a changing treated group -/

/-- Two observations in each of the four cells. -/
def rD (i : Fin 8) : Bool := decide (4 ≤ i.1)
def rPost (i : Fin 8) : Bool := decide (i.1 % 4 ≥ 2)
/-- Intercept and a covariate, 0 and `m` in the treated group after treatment, 0 and 1 elsewhere. -/
def rX (m : ℝ) (i : Fin 8) : Fin 2 → ℝ := ![1, if i.1 % 2 = 0 then 0 else if i.1 = 7 then m else 1]
/-- Trend `1 + 2 x`, group difference `3 x`, effect `a x`, a fair-coin shock. -/
def rY (m a e : ℝ) (i : Fin 8) : ℝ :=
  (if rPost i then 1 + 2 * rX m i 1 else 0) + (if rD i then 3 * rX m i 1 else 0) + (if rD i && rPost i then a * rX m i 1 else 0) + e

theorem r_cells : FourCells (fun _ => 1) rD rPost where
  nonneg := fun _ => zero_le_one
  pos := by
    intro pre treat
    rw [Finset.sum_const, nsmul_eq_mul, mul_one]
    cases pre <;> cases treat <;> exact_mod_cast (by decide)

theorem r_linear (m a : ℝ) : LinearCells coin (rY m a) rD rPost (rX m) (fun _ => 0) ![1, 2] ![0, 3] ![0, a] where
  int := fun i => (coin_int _).1
  mean := by
    intro i
    rw [(coin_int _).2]
    unfold rY
    have h0 : rX m i 0 = 1 := rfl
    by_cases hp : rPost i = true <;> by_cases hd : rD i = true <;> simp [hp, hd, Fin.sum_univ_two, h0] <;> ring

theorem r_one (i : Fin 8) : DR.normalize (fun _ : Fin 8 => (1 : ℝ)) i = 1 := by
  simp [DR.normalize, DR.mean]

theorem r_fits (m : ℝ) (hm : m ≠ 0) (treat : Bool) : FitsCells gramOLS (DR.normalize fun _ => 1) rD rPost (rX m) treat := by
  intro pre
  refine gramOLS_fits _ _ _ ?_
  intro v hv
  have a := hv 0
  have b := hv 1
  have hsel : ∀ f : Fin 8 → ℝ, ∑ i with cellSel rD rPost pre treat i = true, f i =
      if treat then (if pre then f 4 + f 5 else f 6 + f 7) else if pre then f 0 + f 1 else f 2 + f 3 := by
    intro f
    rw [Finset.sum_filter, Fin.sum_univ_eight]
    cases pre <;> cases treat <;> simp [cellSel, rD, rPost]
  simp only [hsel, r_one, Fin.sum_univ_two] at a b
  have key : v 0 = 0 ∧ v 1 = 0 := by
    cases pre <;> cases treat <;> simp [rX, hm] at a b <;> constructor <;> first | linarith | skip
    all_goals
      have : m * v 1 = 0 := by linarith
      rcases mul_eq_zero.1 this with h | h
      · exact absurd h hm
      · linarith
  funext k
  fin_cases k
  · exact key.1
  · exact key.2

theorem r_avg (m : ℝ) (f : ℝ → ℝ) : wavg (fun _ : Fin 8 => (1 : ℝ)) (fun i => rD i = true) (fun i => f (rX m i 1)) = (f 0 + f 1 + f 0 + f m) / 4 ∧
    wavg (fun _ : Fin 8 => (1 : ℝ)) (fun i => cellSel rD rPost false true i = true) (fun i => f (rX m i 1)) = (f 0 + f m) / 2 ∧
    wavg (fun _ : Fin 8 => (1 : ℝ)) (fun i => cellSel rD rPost true true i = true) (fun i => f (rX m i 1)) = (f 0 + f 1) / 2 := by
  refine ⟨?_, ?_, ?_⟩ <;> unfold wavg <;> rw [Finset.sum_filter, Finset.sum_filter, Fin.sum_univ_eight, Fin.sum_univ_eight] <;>
    simp [rD, rPost, rX, cellSel] <;> norm_num

theorem r_dot (m : ℝ) (i : Fin 8) (b : Fin 2 → ℝ) : ∑ k, rX m i k * b k = b 0 + rX m i 1 * b 1 := by
  rw [Fin.sum_univ_two]
  simp [rX]

theorem r_stable : StableTreated (fun _ => 1) rD rPost (rX 1) := by
  intro k
  have h1 := (r_avg 1 fun z => if k = 0 then 1 else z).2.1
  have h0 := (r_avg 1 fun z => if k = 0 then 1 else z).2.2
  have e : ∀ i, rX 1 i k = if k = 0 then 1 else rX 1 i 1 := by
    intro i
    fin_cases k <;> simp [rX]
  simp only [e]
  rw [h1, h0]

/-- With the same covariates in all periods the regression estimator is unbiased for the mean effect `4 · 1/2`. -/
example : ∃ att : ℝ → ℝ, (∀ e, regDidRC gramOLS (rY 1 4 e) rPost rD (rX 1) (fun _ => 1) = some (att e)) ∧ Integrable att coin ∧ ∫ e, att e ∂coin = 2 := by
  have := C256_reg_stable coin gramOLS (rY 1 4) rD rPost (rX 1) (fun _ => 1) _ _ _ _ r_cells (r_linear 1 4) r_stable (r_fits 1 one_ne_zero false)
  simp only [r_dot] at this
  rw [(r_avg 1 fun z => (![0, 4] : Fin 2 → ℝ) 0 + z * (![0, 4] : Fin 2 → ℝ) 1).1] at this
  norm_num at this
  exact this

example : ∃ att : ℝ → ℝ, (∀ e, drdidTradRC gramOLS (fun _ _ _ _ => 1 / 2) (1 / 10) (9 / 10) (9 / 10) (rY 1 4 e) rPost rD (rX 1) (fun _ => 1) =
    some (att e)) ∧ Integrable att coin ∧ ∫ e, att e ∂coin = 2 := by
  have := C256_trad_stable coin gramOLS (rY 1 4) rD rPost (rX 1) (fun _ => 1) _ _ _ _ r_cells (r_linear 1 4) r_stable (r_fits 1 one_ne_zero false)
    (fun _ _ _ _ => 1 / 2) (1 / 10) (9 / 10) (9 / 10)
  simp only [r_dot] at this
  rw [(r_avg 1 fun z => (![0, 4] : Fin 2 → ℝ) 0 + z * (![0, 4] : Fin 2 → ℝ) 1).1] at this
  norm_num at this ⊢
  exact this

/-- **C256 (violated).**  Treatment has no effect, but the treated observed after it have other covariates than those observed before: `reg_did_rc` and
`drdid_trad_rc` have mean 4 and 3, `drdid_rc` has mean 0. -/
theorem C256_composition_violated (logit : Logit (Fin 8) (Fin 2) ℝ) (lo hi level : ℝ) :
    (∃ att : ℝ → ℝ, (∀ e, regDidRC gramOLS (rY 3 0 e) rPost rD (rX 3) (fun _ => 1) = some (att e)) ∧ Integrable att coin ∧ ∫ e, att e ∂coin = 4) ∧
    (∃ att : ℝ → ℝ, (∀ e, drdidTradRC gramOLS logit lo hi level (rY 3 0 e) rPost rD (rX 3) (fun _ => 1) = some (att e)) ∧ Integrable att coin ∧
      ∫ e, att e ∂coin = 3) ∧
    (∃ att : ℝ → ℝ, (∀ e, drdidRC gramOLS logit lo hi level (rY 3 0 e) rPost rD (rX 3) (fun _ => 1) = some (att e)) ∧ Integrable att coin ∧
      ∫ e, att e ∂coin = 0) := by
  refine ⟨?_, ?_, ?_⟩
  · have := C256_reg coin gramOLS (rY 3 0) rD rPost (rX 3) (fun _ => 1) _ _ _ _ r_cells (r_linear 3 0) (r_fits 3 three_ne_zero false)
    obtain ⟨att, h1, h2, h3⟩ := this
    refine ⟨att, h1, h2, h3.trans ?_⟩
    simp only [Fin.sum_univ_two, show ∀ i, rX 3 i 0 = 1 from fun _ => rfl, Matrix.cons_val_zero, Matrix.cons_val_one]
    rw [(r_avg 3 fun z => 1 * (1 + 0 + 0) + z * (2 + 3 + 0)).2.1, (r_avg 3 fun z => 1 * (0 + 0) + z * (0 + 3)).2.2,
      (r_avg 3 fun z => 1 * (1 - 0) + z * (2 - 0)).1]
    norm_num
  · have := C256_trad coin gramOLS (rY 3 0) rD rPost (rX 3) (fun _ => 1) _ _ _ _ r_cells (r_linear 3 0) (r_fits 3 three_ne_zero false) logit lo hi level
    obtain ⟨att, h1, h2, h3⟩ := this
    refine ⟨att, h1, h2, h3.trans ?_⟩
    simp only [Fin.sum_univ_two, show ∀ i, rX 3 i 0 = 1 from fun _ => rfl, Matrix.cons_val_zero, Matrix.cons_val_one]
    rw [(r_avg 3 fun z => 1 * (0 + 0) + z * (3 + 0)).2.1, (r_avg 3 fun z => 1 * 0 + z * 3).2.2]
    norm_num
  · have := C256_efficient coin gramOLS (rY 3 0) rD rPost (rX 3) (fun _ => 1) _ _ _ _ r_cells (r_linear 3 0) (r_fits 3 three_ne_zero false)
      (r_fits 3 three_ne_zero true) logit lo hi level
    obtain ⟨att, h1, h2, h3⟩ := this
    refine ⟨att, h1, h2, h3.trans ?_⟩
    simp only [Fin.sum_univ_two, show ∀ i, rX 3 i 0 = 1 from fun _ => rfl, Matrix.cons_val_zero, Matrix.cons_val_one]
    rw [(r_avg 3 fun z => 1 * 0 + z * 0).1]
    norm_num

end Verif.Ident
