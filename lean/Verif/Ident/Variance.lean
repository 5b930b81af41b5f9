import Verif.Ident.Reg
import Verif.DR.Jackknife
import Verif.DR.MeanZero
import Mathlib.Probability.Independence.Integration

set_option linter.unusedSectionVars false
set_option linter.unusedSimpArgs false

/-!
# C254: the analytic standard error without covariates and its bias
-/

namespace Verif.Ident

open Verif.DR MeasureTheory

variable {ι Ω : Type*} [Fintype ι] [DecidableEq ι] [MeasurableSpace Ω]

/-! ## Model -/

/-- Square of `np.std(inf, ddof=1)`. -/
noncomputable def var1 (f : ι → ℝ) : ℝ := (∑ i, (f i - DR.mean f) ^ 2) / ((Fintype.card ι : ℝ) - 1)

/-- Square of the analytic standard error `np.std(inf, ddof=1) * np.sqrt(n - 1) / n`, `reg_did_panel.py:204`, `drdid_panel.py:156`. -/
noncomputable def se2 (f : ι → ℝ) : ℝ := var1 f * ((Fintype.card ι : ℝ) - 1) / (Fintype.card ι : ℝ) ^ 2

/-! ## Specification -/

/-- Weighted squared deviations of one arm from its weighted mean, over its squared weight. -/
noncomputable def armVar (w : ι → ℝ) (d : ι → Bool) (b : Bool) (dy : ι → ℝ) : ℝ :=
  (∑ i with d i = b, (w i * (dy i - wavg w (fun i => d i = b) dy)) ^ 2) / (∑ i with d i = b, w i) ^ 2

/-- Number of units of an arm. -/
def armSize (d : ι → Bool) (b : Bool) : ℕ := (Finset.univ.filter fun i => d i = b).card

/-- Outcome changes uncorrelated across units, with mean `μ b` and variance `s b` in arm `b`. -/
structure Uncorrelated (P : Measure Ω) (dy : Ω → ι → ℝ) (d : ι → Bool) (μ s : Bool → ℝ) : Prop where
  int : ∀ i, Integrable (fun ω => dy ω i) P
  int2 : ∀ i j, Integrable (fun ω => (dy ω i - μ (d i)) * (dy ω j - μ (d j))) P
  mean : ∀ i, ∫ ω, dy ω i ∂P = μ (d i)
  cov : ∀ i j, ∫ ω, (dy ω i - μ (d i)) * (dy ω j - μ (d j)) ∂P = if i = j then s (d i) else 0

/-! ## The formula -/

theorem se2_eq (f : ι → ℝ) (hm : DR.mean f = 0) (hn : 2 ≤ Fintype.card ι) : se2 f = (∑ i, f i ^ 2) / (Fintype.card ι : ℝ) ^ 2 := by
  unfold se2 var1
  have : ((Fintype.card ι : ℝ) - 1) ≠ 0 := by
    have : (2 : ℝ) ≤ Fintype.card ι := by exact_mod_cast hn
    linarith
  rw [div_mul_cancel₀ _ this, hm]
  simp

/-- The influence value of a unit without covariates. -/
theorem regIF_eq (d : ι → Bool) (dy w : ι → ℝ) (x : ι → Unit → ℝ) (β : Unit → ℝ) (M : Unit → Unit → ℝ) (hx : ∀ i, x i () = 1)
    (hw : BothArms w d) (hols : NormalEq w (notB d) x dy β) (hM : IsGramInv (fun j => w j * (1 - ind d j)) x M) (i : ι) :
    regPanelIF d (fitted x β) dy w x M i = Fintype.card ι * (if d i = true then
      w i * (dy i - wavg w (fun i => d i = true) dy) / ∑ j with d j = true, w j else
      -(w i * (dy i - wavg w (fun i => d i = false) dy) / ∑ j with d j = false, w j)) := by
  have hne := hw.nonempty
  have hn : (Fintype.card ι : ℝ) ≠ 0 := by exact_mod_cast Fintype.card_ne_zero
  have hT := hw.treated.ne'
  have hC := hw.control.ne'
  have hfit : ∀ i, fitted x β i = β () := fun i => by simp [fitted, hx]
  have hβ : β () = wavg w (fun i => d i = false) dy := by
    have h := hols ()
    simp only [hx, mul_one, one_mul, Finset.univ_unique, Finset.sum_singleton, notB, Bool.not_eq_true', mul_sub, Finset.sum_sub_distrib] at h
    rw [← Finset.sum_mul, sub_eq_zero] at h
    rw [wavg, eq_div_iff hC, mul_comm]
    exact h.symm
  have hmt : DR.mean (fun i => w i * ind d i) = (∑ j with d j = true, w j) / Fintype.card ι := by
    unfold DR.mean
    rw [Finset.sum_filter]
    congr 1
    exact Finset.sum_congr rfl fun j _ => by by_cases h : d j = true <;> simp [ind, h]
  have hmt0 : DR.mean (fun i => w i * ind d i) ≠ 0 := by rw [hmt]; exact div_ne_zero hT hn
  have hmc : DR.mean (fun i => w i * (1 - ind d i)) = (∑ j with d j = false, w j) / Fintype.card ι := by
    unfold DR.mean
    rw [Finset.sum_filter]
    congr 1
    refine Finset.sum_congr rfl fun j _ => ?_
    cases h : d j <;> simp [ind, h]
  have hMv : M () () = Fintype.card ι / ∑ j with d j = false, w j := by
    have h := hM () ()
    simp only [hx, mul_one, Finset.univ_unique, Finset.sum_singleton, if_true] at h
    rw [show (default : Unit) = () from rfl, hmc] at h
    field_simp at h ⊢
    linarith
  have hetaT : wmean (fun i => w i * ind d i) dy = wavg w (fun i => d i = true) dy := by
    have := wmean_group d w dy
    rw [← this]
    congr 1
    funext i
    ring
  have hetaC : wmean (fun i => w i * ind d i) (fitted x β) = β () := by
    unfold wmean
    simp only [hfit]
    have : DR.mean (fun i => w i * ind d i * β ()) = DR.mean (fun i => w i * ind d i) * β () := by
      unfold DR.mean
      rw [← Finset.sum_mul]
      ring
    rw [this, mul_div_assoc, mul_comm, div_mul_cancel₀ _ hmt0]
  unfold regPanelIF
  simp only [hetaT, hetaC, alrOLS, dot, Finset.univ_unique, Finset.sum_singleton, hx, mul_one, hfit, sub_self, zero_add]
  rw [show (default : Unit) = () from rfl, hMv, hmt, hβ]
  unfold ind
  by_cases h : d i = true
  · simp only [h, if_true, sub_self, mul_zero, zero_mul, mul_one, zero_div, sub_zero]
    field_simp
  · simp only [h, if_false, Bool.false_eq_true, mul_zero, zero_mul, zero_div, sub_zero, mul_one, zero_sub]
    field_simp

theorem two_units (w : ι → ℝ) (d : ι → Bool) (hw : BothArms w d) : 2 ≤ Fintype.card ι := by
  obtain ⟨i, hi⟩ : ∃ i, d i = true := by
    by_contra h
    push Not at h
    have := hw.treated
    rw [Finset.filter_eq_empty_iff.2 fun i _ hi => h i hi] at this
    simp at this
  obtain ⟨j, hj⟩ : ∃ i, d i = false := by
    by_contra h
    push Not at h
    have := hw.control
    rw [Finset.filter_eq_empty_iff.2 fun i _ hi => h i hi] at this
    simp at this
  have : i ≠ j := by rintro rfl; rw [hi] at hj; cases hj
  have h2 := Finset.card_le_univ ({i, j} : Finset ι)
  rwa [Finset.card_pair this] at h2

/-- **C254.**  Without covariates the squared analytic standard error of `reg_did_panel` is the sum over the two arms of the weighted squared deviations
from the arm's mean change over the arm's squared weight. -/
theorem C254_formula (d : ι → Bool) (dy w : ι → ℝ) (x : ι → Unit → ℝ) (β : Unit → ℝ) (M : Unit → Unit → ℝ) (hx : ∀ i, x i () = 1)
    (hw : BothArms w d) (hols : NormalEq w (notB d) x dy β) (hM : IsGramInv (fun j => w j * (1 - ind d j)) x M) :
    se2 (regPanelIF d (fitted x β) dy w x M) = armVar w d true dy + armVar w d false dy := by
  have hne := hw.nonempty
  have hn : (Fintype.card ι : ℝ) ≠ 0 := by exact_mod_cast Fintype.card_ne_zero
  have hmt0 : DR.mean (fun i => w i * ind d i) ≠ 0 := by
    have : DR.mean (fun i => w i * ind d i) = (∑ j with d j = true, w j) / Fintype.card ι := by
      unfold DR.mean
      rw [Finset.sum_filter]
      congr 1
      exact Finset.sum_congr rfl fun j _ => by by_cases h : d j = true <;> simp [ind, h]
    rw [this]
    exact div_ne_zero hw.treated.ne' hn
  rw [se2_eq _ (C27_reg_panel d dy w x β M hmt0 hols) (two_units w d hw)]
  simp only [regIF_eq d dy w x β M hx hw hols hM, mul_pow]
  rw [← Finset.mul_sum, mul_comm, mul_div_assoc, div_self (pow_ne_zero 2 hn), mul_one]
  unfold armVar
  rw [← Finset.sum_filter_add_sum_filter_not Finset.univ fun i => d i = true]
  rw [Finset.sum_div, Finset.sum_div]
  congr 1
  · refine Finset.sum_congr rfl fun i hi => ?_
    have : d i = true := (Finset.mem_filter.1 hi).2
    rw [if_pos this, div_pow]
  · refine Finset.sum_congr (by ext i; simp) fun i hi => ?_
    have : ¬ d i = true := by have := (Finset.mem_filter.1 hi).2; simpa using this
    rw [if_neg this, neg_sq, div_pow]

/-! ## The bias -/

theorem wavg_one (d : ι → Bool) (b : Bool) (v : ι → ℝ) : wavg (fun _ => 1) (fun i => d i = b) v = (∑ i with d i = b, v i) / armSize d b := by
  unfold wavg armSize
  simp

theorem arm_dev (P : Measure Ω) (T : Finset ι) (hT : 0 < T.card) (e : Ω → ι → ℝ) (s : ℝ) (hi : ∀ i j, Integrable (fun ω => e ω i * e ω j) P)
    (hc : ∀ i ∈ T, ∀ j ∈ T, ∫ ω, e ω i * e ω j ∂P = if i = j then s else 0) :
    (Integrable (fun ω => (∑ i ∈ T, e ω i) ^ 2) P ∧ ∫ ω, (∑ i ∈ T, e ω i) ^ 2 ∂P = T.card * s) ∧
    Integrable (fun ω => ∑ i ∈ T, (e ω i - (∑ j ∈ T, e ω j) / T.card) ^ 2) P ∧
      ∫ ω, ∑ i ∈ T, (e ω i - (∑ j ∈ T, e ω j) / T.card) ^ 2 ∂P = (T.card - 1) * s := by
  have hne : (T.card : ℝ) ≠ 0 := by exact_mod_cast hT.ne'
  have sq : ∀ ω, (∑ i ∈ T, e ω i) ^ 2 = ∑ i ∈ T, ∑ j ∈ T, e ω i * e ω j := fun ω => by rw [pow_two, Finset.sum_mul_sum]
  have h1 : Integrable (fun ω => (∑ i ∈ T, e ω i) ^ 2) P := by
    simp only [sq]
    exact integrable_finsetSum _ fun i _ => integrable_finsetSum _ fun j _ => hi i j
  have h2 : ∫ ω, (∑ i ∈ T, e ω i) ^ 2 ∂P = T.card * s := by
    simp only [sq]
    rw [integral_finsetSum _ fun i _ => integrable_finsetSum _ fun j _ => hi i j]
    rw [Finset.sum_congr rfl fun i hiT => ?_, Finset.sum_const, nsmul_eq_mul]
    rw [integral_finsetSum _ fun j _ => hi i j, Finset.sum_congr rfl fun j hj => hc i hiT j hj]
    simp [hiT]
  have dev : ∀ ω, ∑ i ∈ T, (e ω i - (∑ j ∈ T, e ω j) / T.card) ^ 2 = ∑ i ∈ T, e ω i * e ω i - (∑ i ∈ T, e ω i) ^ 2 / T.card := by
    intro ω
    obtain ⟨m, hm⟩ : ∃ m, m = (∑ j ∈ T, e ω j) / T.card := ⟨_, rfl⟩
    have hS : ∑ j ∈ T, e ω j = m * T.card := by rw [hm, div_mul_cancel₀ _ hne]
    rw [← hm]
    have : ∀ i, (e ω i - m) ^ 2 = e ω i * e ω i - 2 * m * e ω i + m ^ 2 := fun i => by ring
    simp only [this, Finset.sum_add_distrib, Finset.sum_sub_distrib, ← Finset.mul_sum, Finset.sum_const, nsmul_eq_mul, hS]
    field_simp
    ring
  have h3 : Integrable (fun ω => ∑ i ∈ T, e ω i * e ω i) P := integrable_finsetSum _ fun i _ => hi i i
  refine ⟨⟨h1, h2⟩, ?_, ?_⟩
  · simp only [dev]
    exact h3.sub (h1.div_const _)
  · simp only [dev]
    rw [integral_sub h3 (h1.div_const _), integral_div, h2, integral_finsetSum _ fun i _ => hi i i,
      Finset.sum_congr rfl fun i hiT => by rw [hc i hiT i hiT, if_pos rfl], Finset.sum_const, nsmul_eq_mul, mul_div_assoc]
    field_simp

/-- **C254.**  With equal weights and uncorrelated outcome changes, the true variance of the estimate is `s₁/n₁ + s₀/n₀`, but the expectation of its
squared analytic standard error is `s₁(n₁-1)/n₁² + s₀(n₀-1)/n₀²`: too small by `s₁/n₁² + s₀/n₀²`. -/
theorem C254_bias (P : Measure Ω) [IsProbabilityMeasure P] (d : ι → Bool) (dy : Ω → ι → ℝ) (μ s : Bool → ℝ) (hu : Uncorrelated P dy d μ s)
    (h1 : 0 < armSize d true) (h0 : 0 < armSize d false) (x : ι → Unit → ℝ) (hx : ∀ i, x i () = 1) (β : Ω → Unit → ℝ)
    (hols : ∀ ω, NormalEq (fun _ => 1) (notB d) x (dy ω) (β ω)) (M : Unit → Unit → ℝ) (hM : IsGramInv (fun j => 1 * (1 - ind d j)) x M) :
    ∫ ω, (regPanel d (fitted x (β ω)) (dy ω) (fun _ => 1) - (μ true - μ false)) ^ 2 ∂P = s true / armSize d true + s false / armSize d false ∧
    ∫ ω, se2 (regPanelIF d (fitted x (β ω)) (dy ω) (fun _ => 1) x M) ∂P =
      s true * (armSize d true - 1) / (armSize d true : ℝ) ^ 2 + s false * (armSize d false - 1) / (armSize d false : ℝ) ^ 2 := by
  have n1 : (armSize d true : ℝ) ≠ 0 := by exact_mod_cast h1.ne'
  have n0 : (armSize d false : ℝ) ≠ 0 := by exact_mod_cast h0.ne'
  have hw : BothArms (fun _ : ι => (1 : ℝ)) d := by
    refine ⟨fun _ => zero_le_one, ?_, ?_⟩
    · simpa [armSize] using h1
    · simpa [armSize] using h0
  have hne := hw.nonempty
  obtain ⟨e, he⟩ : ∃ e : Ω → ι → ℝ, ∀ ω i, e ω i = dy ω i - μ (d i) := ⟨_, fun _ _ => rfl⟩
  have hi : ∀ i j, Integrable (fun ω => e ω i * e ω j) P := by simpa only [he] using hu.int2
  have hc : ∀ b, ∀ i ∈ (Finset.univ.filter fun i => d i = b), ∀ j ∈ (Finset.univ.filter fun i => d i = b),
      ∫ ω, e ω i * e ω j ∂P = if i = j then s b else 0 := by
    intro b i hib j _
    have h := hu.cov i j
    rw [(Finset.mem_filter.1 hib).2] at h
    simp only [he, (Finset.mem_filter.1 hib).2]
    exact h
  have key := fun b (hb : 0 < armSize d b) => arm_dev P (Finset.univ.filter fun i => d i = b) hb e (s b) hi (hc b)
  have hmean : ∀ ω b, 0 < armSize d b → wavg (fun _ => 1) (fun i => d i = b) (dy ω) - μ b = (∑ i with d i = b, e ω i) / armSize d b := by
    intro ω b hb
    have nb : (armSize d b : ℝ) ≠ 0 := by exact_mod_cast hb.ne'
    rw [wavg_one, eq_div_iff nb, sub_mul, div_mul_cancel₀ _ nb]
    have : ∑ i with d i = b, e ω i = ∑ i with d i = b, (dy ω i - μ b) := Finset.sum_congr rfl fun i hib => by rw [he, (Finset.mem_filter.1 hib).2]
    rw [this, Finset.sum_sub_distrib, Finset.sum_const, nsmul_eq_mul, mul_comm (μ b)]
    rfl
  have hcross : Integrable (fun ω => (∑ i with d i = true, e ω i) * ∑ i with d i = false, e ω i) P ∧
      ∫ ω, (∑ i with d i = true, e ω i) * ∑ i with d i = false, e ω i ∂P = 0 := by
    simp only [Finset.sum_mul_sum]
    refine ⟨integrable_finsetSum _ fun i _ => integrable_finsetSum _ fun j _ => hi i j, ?_⟩
    rw [integral_finsetSum _ fun i _ => integrable_finsetSum _ fun j _ => hi i j]
    refine Finset.sum_eq_zero fun i h1 => ?_
    rw [integral_finsetSum _ fun j _ => hi i j]
    refine Finset.sum_eq_zero fun j h2 => ?_
    have h := hu.cov i j
    have hij : i ≠ j := by
      rintro rfl
      have a := (Finset.mem_filter.1 h1).2
      rw [(Finset.mem_filter.1 h2).2] at a
      cases a
    rw [if_neg hij] at h
    simpa only [he] using h
  constructor
  · have hest : ∀ ω, (regPanel d (fitted x (β ω)) (dy ω) (fun _ => 1) - (μ true - μ false)) ^ 2 =
        (∑ i with d i = true, e ω i) ^ 2 / (armSize d true : ℝ) ^ 2 +
        (-2 / (armSize d true * armSize d false)) * ((∑ i with d i = true, e ω i) * ∑ i with d i = false, e ω i) +
        (∑ i with d i = false, e ω i) ^ 2 / (armSize d false : ℝ) ^ 2 := by
      intro ω
      have hβ : β ω () = wavg (fun _ => 1) (fun i => d i = false) (dy ω) := by
        have h := hols ω ()
        simp only [hx, mul_one, one_mul, Finset.univ_unique, Finset.sum_singleton, notB, Bool.not_eq_true', Finset.sum_sub_distrib, Finset.sum_const,
          nsmul_eq_mul, sub_eq_zero] at h
        rw [wavg_one, eq_div_iff n0, mul_comm]
        exact h.symm
      have hreg : regPanel d (fitted x (β ω)) (dy ω) (fun _ => 1) = wavg (fun _ => 1) (fun i => d i = true) (dy ω) - wavg (fun _ => 1) (fun i => d i = false) (dy ω) := by
        unfold regPanel
        have e1 : (fun i => (1 : ℝ) * ind d i) = fun i => ind d i * (1 : ℝ) := by funext i; ring
        rw [e1, wmean_group d (fun _ => 1) (dy ω), wmean_group d (fun _ => 1) (fitted x (β ω)), ← hβ]
        congr 1
        have : ∀ i, fitted x (β ω) i = β ω () := fun i => by simp [fitted, hx]
        rw [wavg_one]
        simp only [this, Finset.sum_const, nsmul_eq_mul]
        rw [mul_comm, mul_div_assoc]
        exact (congrArg _ (div_self n1)).trans (mul_one _)
      have a := hmean ω true h1
      have b := hmean ω false h0
      have : regPanel d (fitted x (β ω)) (dy ω) (fun _ => 1) - (μ true - μ false) =
          (∑ i with d i = true, e ω i) / armSize d true - (∑ i with d i = false, e ω i) / armSize d false := by rw [hreg, ← a, ← b]; ring
      rw [this]
      field_simp
      ring
    simp only [hest]
    have i1 := ((key true h1).1.1.div_const ((armSize d true : ℝ) ^ 2))
    have i2 := hcross.1.const_mul (-2 / (armSize d true * armSize d false : ℝ))
    have i3 := ((key false h0).1.1.div_const ((armSize d false : ℝ) ^ 2))
    refine (integral_add (i1.add i2) i3).trans ?_
    have h12 : ∫ ω, ((fun ω => (∑ i with d i = true, e ω i) ^ 2 / (armSize d true : ℝ) ^ 2) +
      fun ω => -2 / (armSize d true * armSize d false : ℝ) * ((∑ i with d i = true, e ω i) * ∑ i with d i = false, e ω i)) ω ∂P = _ := integral_add i1 i2
    rw [h12, integral_div, integral_div, integral_const_mul, hcross.2, (key true h1).1.2, (key false h0).1.2]
    change (armSize d true : ℝ) * s true / _ + _ + (armSize d false : ℝ) * s false / _ = _
    field_simp
    ring
  · have hse : ∀ ω, se2 (regPanelIF d (fitted x (β ω)) (dy ω) (fun _ => 1) x M) =
        (∑ i with d i = true, (e ω i - (∑ j with d j = true, e ω j) / armSize d true) ^ 2) / (armSize d true : ℝ) ^ 2 +
        (∑ i with d i = false, (e ω i - (∑ j with d j = false, e ω j) / armSize d false) ^ 2) / (armSize d false : ℝ) ^ 2 := by
      intro ω
      rw [C254_formula d (dy ω) _ x (β ω) M hx hw (hols ω) hM]
      unfold armVar
      have hone : ∀ b, ∑ i with d i = b, (1 : ℝ) = armSize d b := fun b => by simp [armSize]
      have hdev : ∀ b, 0 < armSize d b → ∑ i with d i = b, (1 * (dy ω i - wavg (fun _ => 1) (fun i => d i = b) (dy ω))) ^ 2 =
          ∑ i with d i = b, (e ω i - (∑ j with d j = b, e ω j) / armSize d b) ^ 2 := by
        intro b hb
        refine Finset.sum_congr rfl fun i hib => ?_
        rw [← hmean ω b hb, he, (Finset.mem_filter.1 hib).2]
        ring
      rw [hone, hone, hdev true h1, hdev false h0]
    simp only [hse]
    have i1 := (key true h1).2.1.div_const ((armSize d true : ℝ) ^ 2)
    have i2 := (key false h0).2.1.div_const ((armSize d false : ℝ) ^ 2)
    refine (integral_add i1 i2).trans ?_
    rw [integral_div, integral_div]
    have a := (key true h1).2.2
    have b := (key false h0).2.2
    change ∫ ω, ∑ i with d i = true, (e ω i - (∑ j with d j = true, e ω j) / armSize d true) ^ 2 ∂P = (armSize d true - 1) * s true at a
    change ∫ ω, ∑ i with d i = false, (e ω i - (∑ j with d j = false, e ω j) / armSize d false) ^ 2 ∂P = (armSize d false - 1) * s false at b
    change (∫ ω, ∑ i with d i = true, (e ω i - (∑ j with d j = true, e ω j) / armSize d true) ^ 2 ∂P) / _ +
      (∫ ω, ∑ i with d i = false, (e ω i - (∑ j with d j = false, e ω j) / armSize d false) ^ 2 ∂P) / _ = _
    rw [a, b]
    ring

/-! ## A case that meets the hypotheses: independent fair coins -/

/-- Three treated and two comparison units; unit `i` moves by `±1` with the product of five fair coins. -/
noncomputable def coins : Measure (Fin 5 → ℝ) := Measure.pi fun _ => coin

instance : IsProbabilityMeasure coins := by unfold coins; infer_instance

def vd : Fin 5 → Bool := ![true, true, true, false, false]
noncomputable def vdy (ω : Fin 5 → ℝ) (i : Fin 5) : ℝ := ω i + if vd i then 3 else 1

theorem coins_one (i : Fin 5) (f : ℝ → ℝ) (hf : Measurable f) : Integrable (fun ω => f (ω i)) coins ∧ ∫ ω, f (ω i) ∂coins = (f 1 + f (-1)) / 2 := by
  have hp := measurePreserving_eval (fun _ : Fin 5 => coin) i
  refine ⟨hp.integrable_comp_of_integrable (coin_int f).1, ?_⟩
  rw [← (coin_int f).2, ← hp.map_eq, integral_map (measurable_pi_apply i).aemeasurable hf.aestronglyMeasurable]
  rfl

theorem coins_two (i j : Fin 5) : Integrable (fun ω => ω i * ω j) coins ∧ ∫ ω, ω i * ω j ∂coins = if i = j then 1 else 0 := by
  by_cases h : i = j
  · subst h
    have := coins_one i (fun a => a * a) (by fun_prop)
    refine ⟨this.1, this.2.trans ?_⟩
    rw [if_pos rfl]
    norm_num
  · have hind := (ProbabilityTheory.iIndepFun_pi (μ := fun _ : Fin 5 => coin) (X := fun _ a => a) fun _ => aemeasurable_id).indepFun h
    have a := coins_one i (fun a => a) (by fun_prop)
    have b := coins_one j (fun a => a) (by fun_prop)
    refine ⟨hind.integrable_mul a.1 b.1, ?_⟩
    have := hind.integral_fun_mul_eq_mul_integral a.1.aestronglyMeasurable b.1.aestronglyMeasurable
    rw [if_neg h]
    refine this.trans ?_
    have z : ∫ ω : Fin 5 → ℝ, ω i ∂coins = 0 := by rw [a.2]; norm_num
    exact mul_eq_zero_of_left z _

theorem v_uncorrelated : Uncorrelated coins vdy vd (fun b => if b then 3 else 1) (fun _ => 1) where
  int := fun i => (coins_one i (fun a => a + if vd i then 3 else 1) (by fun_prop)).1
  int2 := fun i j => by simpa [vdy] using (coins_two i j).1
  mean := fun i => by
    have := (coins_one i (fun a => a + if vd i then 3 else 1) (by fun_prop)).2
    refine this.trans ?_
    ring
  cov := fun i j => by simpa [vdy] using (coins_two i j).2

/-- True variance `1/3 + 1/2`, expected squared standard error `2/9 + 1/4`. -/
example : ∫ ω, (regPanel vd (fitted (fun _ (_ : Unit) => 1) fun _ => (vdy ω 3 + vdy ω 4) / 2) (vdy ω) (fun _ => 1) - 2) ^ 2 ∂coins = 5 / 6 ∧
    ∫ ω, se2 (regPanelIF vd (fitted (fun _ (_ : Unit) => 1) fun _ => (vdy ω 3 + vdy ω 4) / 2) (vdy ω) (fun _ => 1) (fun _ (_ : Unit) => 1) fun _ _ => 5 / 2) ∂coins = 17 / 36 := by
  have e1 : armSize vd true = 3 := by decide
  have e0 : armSize vd false = 2 := by decide
  have hv : vd 0 = true ∧ vd 1 = true ∧ vd 2 = true ∧ vd 3 = false ∧ vd 4 = false := ⟨rfl, rfl, rfl, rfl, rfl⟩
  obtain ⟨a, b⟩ := C254_bias coins vd vdy _ _ v_uncorrelated (by rw [e1]; norm_num) (by rw [e0]; norm_num) (fun _ _ => 1) (fun _ => rfl)
    (fun ω _ => (vdy ω 3 + vdy ω 4) / 2) (fun ω k => by
      rw [Finset.sum_filter, Fin.sum_univ_five]
      simp [notB, hv]
      ring) (fun _ _ => 5 / 2) (fun k m => by
      have e : (Finset.univ.filter fun x => vd x = true).card = 3 := by decide
      simp [DR.mean, ind, hv, e]
      norm_num)
  rw [e1, e0] at a b
  refine ⟨?_, b.trans (by norm_num)⟩
  have : (if true = true then (3 : ℝ) else 1) - (if false = true then (3 : ℝ) else 1) = 2 := by norm_num
  rw [this] at a
  exact a.trans (by norm_num)

end Verif.Ident
