import Verif.Sim.Assign
import Mathlib.MeasureTheory.Integral.Bochner.Basic
import Mathlib.Probability.Distributions.Gaussian.Real

/-!
# C240-C242: working models, parallel trends and effects in the generated data
-/

set_option linter.unusedSectionVars false
set_option linter.unusedSimpArgs false

namespace Verif.Sim

open MeasureTheory

variable {Ω : Type*} [MeasurableSpace Ω]

/-! ## Specification -/

/-- A noise term with mean zero. -/
def MeanZero (P : Measure Ω) (f : Ω → ℝ) : Prop := Integrable f P ∧ ∫ ω, f ω ∂P = 0

/-- Triple difference of mean outcomes `mu cohort partition period`: cohort `g` against `c`, period `t` against `s`. -/
def ddd (mu : ℕ → ℕ → ℕ → ℝ) (g c t s : ℕ) : ℝ :=
  ((mu g 1 t - mu g 1 s) - (mu g 0 t - mu g 0 s)) - ((mu c 1 t - mu c 1 s) - (mu c 0 t - mu c 0 s))

/-- Difference in differences of mean outcomes `mu cohort period`. -/
def did (mu : ℕ → ℕ → ℝ) (g c t s : ℕ) : ℝ := (mu g t - mu g s) - (mu c t - mu c s)

/-- Affine in the four reported covariates. -/
def AffineInReported (f : (Fin 4 → ℝ) → ℝ) : Prop := ∃ (a : ℝ) (b : Fin 4 → ℝ), ∀ x, f x = a + ∑ j, b j * reported x j

/-! ## Lemmas -/

theorem loop_eq (values : List ℕ) (t cohort : ℕ) (ok : Prop) [Decidable ok] (A : ℕ → ℝ) (y : ℝ) :
    values.foldl (fun y g => if g = 0 ∨ t < g then y else if cohort = g ∧ ok then A g else y) y =
      if cohort ∈ values ∧ cohort ≠ 0 ∧ cohort ≤ t ∧ ok then A cohort else y := by
  induction values generalizing y with
  | nil => simp
  | cons g l ih =>
    rw [List.foldl_cons, ih]
    by_cases h : cohort = g
    · subst h
      by_cases h0 : cohort = 0 ∨ t < cohort
      · rw [if_pos h0, if_neg (by omega), if_neg (by omega)]
      · rw [if_neg h0]
        by_cases hok : ok
        · rw [if_pos (⟨rfl, hok⟩ : cohort = cohort ∧ ok),
            if_pos (⟨List.mem_cons_self, by omega, by omega, hok⟩ : cohort ∈ cohort :: l ∧ cohort ≠ 0 ∧ cohort ≤ t ∧ ok)]
          split_ifs <;> rfl
        · simp only [hok, and_false, if_false]
    · have : (if g = 0 ∨ t < g then y else if cohort = g ∧ ok then A g else y) = y := by
        rw [if_neg (fun hh : cohort = g ∧ ok => h hh.1), ite_self]
      rw [this]
      simp only [List.mem_cons, h, false_or]

theorem integral_affine2 (P : Measure Ω) [IsProbabilityMeasure P] (ev e : Ω → ℝ) (h1 : MeanZero P ev) (h2 : MeanZero P e) (a k : ℝ) :
    ∫ ω, (a + k * ev ω + e ω) ∂P = a := by
  have i1 : Integrable (fun ω => a + k * ev ω) P := (integrable_const a).add (h1.1.const_mul k)
  rw [integral_add i1 h2.1, integral_add (integrable_const a) (h1.1.const_mul k), integral_const_mul, h1.2, h2.2]
  simp

/-- Mean of a `gen_dgp_scalable` outcome given covariates, cohort and partition. -/
theorem scalable_mean (P : Measure Ω) [IsProbabilityMeasure P] (values : List ℕ) (attBase : ℝ) (t : ℕ) (lin : ℝ) (cohort part : ℕ)
    (hc : cohort ∈ values) (ev e0 : Ω → ℝ) (eg : ℕ → Ω → ℝ) (h1 : MeanZero P ev) (h2 : MeanZero P e0) (h3 : ∀ g, MeanZero P (eg g)) :
    ∫ ω, scalableOutcome values attBase t lin cohort part (ev ω) (e0 ω) (fun g => eg g ω) ∂P =
      lin + part * lin + (cohort * lin + part * lin) + ((t : ℝ) - 1) * (lin + (cohort * lin + part * lin) / 10) +
        if cohort ≠ 0 ∧ cohort ≤ t ∧ part = 1 then attBase * cohort * ((t : ℝ) - cohort + 1) else 0 := by
  unfold scalableOutcome
  simp only [loop_eq]
  by_cases h : cohort ≠ 0 ∧ cohort ≤ t ∧ part = 1
  · have h' : cohort ∈ values ∧ cohort ≠ 0 ∧ cohort ≤ t ∧ part = 1 := ⟨hc, h⟩
    simp only [if_pos h, if_pos h']
    refine Eq.trans (integral_congr_ae (Filter.Eventually.of_forall fun ω => ?_)) (integral_affine2 P ev (eg cohort) h1 (h3 _) _ (1 + ((t : ℝ) - 1) / 10))
    dsimp only
    simp only [h.2.2, Nat.cast_one]
    ring
  · have h' : ¬ (cohort ∈ values ∧ cohort ≠ 0 ∧ cohort ≤ t ∧ part = 1) := fun hh => h hh.2
    simp only [if_neg h, if_neg h']
    refine Eq.trans (integral_congr_ae (Filter.Eventually.of_forall fun ω => ?_)) (integral_affine2 P ev e0 h1 h2 _ (1 + ((t : ℝ) - 1) / 10))
    dsimp only
    ring

/-- Mean of a `gen_did_scalable` outcome given covariates and cohort. -/
theorem did_mean (P : Measure Ω) [IsProbabilityMeasure P] (values : List ℕ) (attBase : ℝ) (t : ℕ) (lin : ℝ) (cohort : ℕ)
    (hc : cohort ∈ values) (ev e0 : Ω → ℝ) (eg : ℕ → Ω → ℝ) (h1 : MeanZero P ev) (h2 : MeanZero P e0) (h3 : ∀ g, MeanZero P (eg g)) :
    ∫ ω, didOutcome values attBase t lin cohort (ev ω) (e0 ω) (fun g => eg g ω) ∂P =
      lin + cohort * lin + ((t : ℝ) - 1) * (lin + cohort * lin / 10) +
        if cohort ≠ 0 ∧ cohort ≤ t then attBase * cohort * ((t : ℝ) - cohort + 1) else 0 := by
  unfold didOutcome
  have hl := fun (A : ℕ → ℝ) (y : ℝ) => loop_eq values t cohort True A y
  simp only [and_true] at hl
  simp only [hl]
  by_cases h : cohort ≠ 0 ∧ cohort ≤ t
  · have h' : cohort ∈ values ∧ cohort ≠ 0 ∧ cohort ≤ t := ⟨hc, h⟩
    simp only [if_pos h, if_pos h']
    refine Eq.trans (integral_congr_ae (Filter.Eventually.of_forall fun ω => ?_)) (integral_affine2 P ev (eg cohort) h1 (h3 _) _ (1 + ((t : ℝ) - 1) / 10))
    dsimp only
    ring
  · have h' : ¬ (cohort ∈ values ∧ cohort ≠ 0 ∧ cohort ≤ t) := fun hh => h hh.2
    simp only [if_neg h, if_neg h']
    refine Eq.trans (integral_congr_ae (Filter.Eventually.of_forall fun ω => ?_)) (integral_affine2 P ev e0 h1 h2 _ (1 + ((t : ℝ) - 1) / 10))
    dsimp only
    ring

theorem raw_not_affine (w : Fin 4 → ℝ) (hw : w 1 ≠ 0) (c : ℝ) : ¬ AffineInReported fun x => c + ∑ j, x j * w j := by
  rintro ⟨a, b, h⟩
  have key : ∀ s : ℝ, w 1 = b 1 * (1 / (1 + Real.exp s) / (54164 / 100000)) := by
    intro s
    have h0 := h ![s, 0, 0, 0]
    have h1 := h ![s, 1, 0, 0]
    simp only [reported, transform, Fin.sum_univ_four, Matrix.cons_val_zero, Matrix.cons_val_one, Matrix.cons_val] at h0 h1
    have hne : (1 + Real.exp s) ≠ 0 := by positivity
    have := congrArg₂ (· - ·) h1 h0
    ring_nf at this ⊢
    linarith
  have k0 := key 0
  have k1 := key 1
  rw [Real.exp_zero] at k0
  have he : 1 < Real.exp 1 := by
    have := Real.add_one_lt_exp (x := 1) one_ne_zero
    linarith
  have hb : b 1 ≠ 0 := by
    intro hb
    rw [hb, zero_mul] at k0
    exact hw k0
  rw [k0] at k1
  have := mul_left_cancel₀ hb k1
  have h2 : (1 : ℝ) / (1 + 1) = 1 / (1 + Real.exp 1) := by
    field_simp at this ⊢
    linarith
  rw [div_eq_div_iff (by norm_num) (by positivity)] at h2
  linarith

theorem transform_affine (w : Fin 4 → ℝ) (c : ℝ) : AffineInReported fun x => c + ∑ j, transform x j * w j :=
  ⟨c, w, fun x => by simp only [reported]; congr 1; exact Finset.sum_congr rfl fun j _ => mul_comm _ _⟩

theorem affine_scale (f : (Fin 4 → ℝ) → ℝ) (k : ℝ) (h : AffineInReported f) : AffineInReported fun x => k * f x := by
  obtain ⟨a, b, h⟩ := h
  refine ⟨k * a, fun j => k * b j, fun x => ?_⟩
  show k * f x = _
  rw [h x, mul_add, Finset.mul_sum]
  simp only [mul_assoc]

theorem affine_unscale (f : (Fin 4 → ℝ) → ℝ) (k : ℝ) (hk : k ≠ 0) (h : AffineInReported fun x => k * f x) : AffineInReported f := by
  have := affine_scale _ k⁻¹ h
  simpa only [inv_mul_cancel_left₀ hk] using this

/-! ## C240 -/

/-- **C240.**  `dgp_type` and the propensity score: the log-odds of a category against the reference category are affine in the reported
covariates exactly for types 1 and 3. -/
theorem C240_propensity (co : List (ℝ × (Fin 4 → ℝ) × ℝ)) (i : ℕ) (psi : ℝ) (w : Fin 4 → ℝ) (c : ℝ) (hi : co[i]? = some (psi, w, c))
    (hpsi : psi ≠ 0) (hw : w 1 ≠ 0) (ty : ℕ) :
    AffineInReported (fun x => Real.log ((softProbs (oddsOf co (psCovars ty x))).getD i 0 / (softProbs (oddsOf co (psCovars ty x))).getD co.length 0)) ↔
      ty = 1 ∨ ty = 3 := by
  have hlt : i < co.length := (List.getElem?_eq_some_iff.1 hi).1
  have hlog : ∀ z, Real.log ((softProbs (oddsOf co z)).getD i 0 / (softProbs (oddsOf co z)).getD co.length 0) =
      4 / 10 * psi * (c + ∑ j, z j * w j) := by
    intro z
    have hpos := oddsOf_pos co z
    have hS : 0 ≤ (oddsOf co z).sum := List.sum_nonneg fun a ha => (hpos a ha).le
    have hlen : (oddsOf co z).length = co.length := by simp [oddsOf]
    have e1 : (softProbs (oddsOf co z)).getD i 0 = Real.exp (fps2 (4 / 10 * psi) w z c) / (1 + (oddsOf co z).sum) := by
      rw [List.getD_eq_getElem?_getD, softProbs, List.getElem?_append_left (by rw [List.length_map, hlen]; exact hlt), List.getElem?_map]
      nth_rewrite 2 [oddsOf]
      rw [List.getElem?_map, hi]
      rfl
    have e2 : (softProbs (oddsOf co z)).getD co.length 0 = 1 / (1 + (oddsOf co z).sum) := by
      rw [List.getD_eq_getElem?_getD, softProbs, List.getElem?_append_right (by rw [List.length_map, hlen])]
      rw [List.length_map, hlen, Nat.sub_self]
      rfl
    rw [e1, e2, div_div_div_cancel_right₀ (by linarith), div_one, Real.log_exp, fps2]
  simp only [hlog]
  by_cases h : ty = 1 ∨ ty = 3
  · refine iff_of_true ?_ h
    simp only [psCovars, if_pos h]
    exact affine_scale _ _ (transform_affine w c)
  · refine iff_of_false (fun hh => ?_) h
    simp only [psCovars, if_neg h] at hh
    exact raw_not_affine w hw c (affine_unscale _ _ (mul_ne_zero (by norm_num) hpsi) hh)

/-- **C240.**  `dgp_type` and the outcome: the mean change of the never treated is affine in the reported covariates exactly for types 1 and 2. -/
theorem C240_outcome (P : Measure Ω) [IsProbabilityMeasure P] (n : ℕ) (attBase : ℝ) (t s : ℕ) (hts : t ≠ s) (ev e0 e0' : Ω → ℝ) (eg eg' : ℕ → Ω → ℝ)
    (h1 : MeanZero P ev) (h2 : MeanZero P e0) (h2' : MeanZero P e0') (h3 : ∀ g, MeanZero P (eg g)) (h3' : ∀ g, MeanZero P (eg' g)) (ty : ℕ) :
    AffineInReported (fun x =>
      (∫ ω, scalableOutcome (cohortValues n) attBase t (freg b1 (orCovars ty x)) 0 0 (ev ω) (e0 ω) (fun g => eg g ω) ∂P) -
      ∫ ω, scalableOutcome (cohortValues n) attBase s (freg b1 (orCovars ty x)) 0 0 (ev ω) (e0' ω) (fun g => eg' g ω) ∂P) ↔
      ty = 1 ∨ ty = 2 := by
  have hmem : 0 ∈ cohortValues n := by simp [cohortValues]
  have hd : ((t : ℝ) - s) ≠ 0 := sub_ne_zero.2 (by exact_mod_cast hts)
  have hval : ∀ x, (∫ ω, scalableOutcome (cohortValues n) attBase t (freg b1 (orCovars ty x)) 0 0 (ev ω) (e0 ω) (fun g => eg g ω) ∂P) -
      (∫ ω, scalableOutcome (cohortValues n) attBase s (freg b1 (orCovars ty x)) 0 0 (ev ω) (e0' ω) (fun g => eg' g ω) ∂P) =
      ((t : ℝ) - s) * (210 + ∑ j, orCovars ty x j * b1 j) := by
    intro x
    rw [scalable_mean P _ _ _ _ _ _ hmem ev e0 eg h1 h2 h3, scalable_mean P _ _ _ _ _ _ hmem ev e0' eg' h1 h2' h3', if_neg (by simp), if_neg (by simp), freg]
    push_cast
    ring
  simp only [hval]
  by_cases h : ty = 1 ∨ ty = 2
  · refine iff_of_true ?_ h
    simp only [orCovars, if_pos h]
    exact affine_scale _ _ (transform_affine b1 210)
  · refine iff_of_false (fun hh => ?_) h
    simp only [orCovars, if_neg h] at hh
    exact raw_not_affine b1 (by norm_num [b1]) 210 (affine_unscale _ _ hd hh)

/-- The hypotheses are met: one treated cohort, coefficients with second weight one, normal noise; type 2 has a wrong propensity score and a
right outcome regression. -/
example : (¬ AffineInReported (fun x => Real.log ((softProbs (oddsOf [(1, ![0, 1, 0, 0], 0)] (psCovars 2 x))).getD 0 0 /
      (softProbs (oddsOf [(1, ![0, 1, 0, 0], 0)] (psCovars 2 x))).getD 1 0))) ∧
    AffineInReported (fun x =>
      (∫ ω, scalableOutcome (cohortValues 1) 10 2 (freg b1 (orCovars 2 x)) 0 0 ω ω (fun _ => ω) ∂(ProbabilityTheory.gaussianReal 0 1)) -
      ∫ ω, scalableOutcome (cohortValues 1) 10 1 (freg b1 (orCovars 2 x)) 0 0 ω ω (fun _ => ω) ∂(ProbabilityTheory.gaussianReal 0 1)) := by
  have hz : MeanZero (ProbabilityTheory.gaussianReal 0 1) fun ω : ℝ => ω :=
    ⟨ProbabilityTheory.memLp_id_gaussianReal 1 |>.integrable (by norm_num), ProbabilityTheory.integral_id_gaussianReal⟩
  constructor
  · intro h
    have := (C240_propensity [(1, ![0, 1, 0, 0], 0)] 0 1 ![0, 1, 0, 0] 0 rfl one_ne_zero (by simp) 2).1 h
    omega
  · exact (C240_outcome (ProbabilityTheory.gaussianReal 0 1) 1 10 2 1 (by norm_num) (fun ω => ω) (fun ω => ω) (fun ω => ω) (fun _ ω => ω) (fun _ ω => ω)
      hz hz hz (fun _ => hz) (fun _ => hz) 2).2 (Or.inr rfl)

/-! ## C241 -/

/-- **C241.**  `gen_dgp_scalable`, given the covariates: without treatment eligible and ineligible units differ by the same trend in every cohort,
so the triple difference of mean outcomes between a treated cohort and a cohort not yet treated is the documented effect. -/
theorem C241_scalable (P : Measure Ω) [IsProbabilityMeasure P] (n : ℕ) (attBase lin : ℝ) (ev e0 : ℕ → ℕ → ℕ → Ω → ℝ) (eg : ℕ → ℕ → ℕ → ℕ → Ω → ℝ)
    (h1 : ∀ g p t, MeanZero P (ev g p t)) (h2 : ∀ g p t, MeanZero P (e0 g p t)) (h3 : ∀ g p t k, MeanZero P (eg g p t k))
    (g c t s : ℕ) (hg : 2 ≤ g ∧ g ≤ n + 1) (hc : c = 0 ∨ t < c ∧ c ≤ n + 1) (ht : g ≤ t) (hs : s < g) :
    ddd (fun g p t => ∫ ω, scalableOutcome (cohortValues n) attBase t lin g p (ev g p t ω) (e0 g p t ω) (fun k => eg g p t k ω) ∂P) g c t s =
      attBase * g * ((t : ℝ) - g + 1) := by
  have mg : g ∈ cohortValues n := by
    simp only [cohortValues, List.mem_cons, List.mem_map, List.mem_range]
    exact Or.inr ⟨g - 2, by omega, by omega⟩
  have mc : c ∈ cohortValues n := by
    simp only [cohortValues, List.mem_cons, List.mem_map, List.mem_range]
    rcases hc with rfl | hc
    · exact Or.inl rfl
    · exact Or.inr ⟨c - 2, by omega, by omega⟩
  have hm := fun g p t (hg : g ∈ cohortValues n) => scalable_mean P (cohortValues n) attBase t lin g p hg (ev g p t) (e0 g p t) (eg g p t) (h1 g p t)
    (h2 g p t) (h3 g p t)
  unfold ddd
  dsimp only
  rw [hm g 1 t mg, hm g 1 s mg, hm g 0 t mg, hm g 0 s mg, hm c 1 t mc, hm c 1 s mc, hm c 0 t mc, hm c 0 s mc]
  rw [if_pos (by omega : g ≠ 0 ∧ g ≤ t ∧ 1 = 1), if_neg (by omega : ¬ (g ≠ 0 ∧ g ≤ s ∧ 1 = 1)), if_neg (by omega : ¬ (g ≠ 0 ∧ g ≤ t ∧ 0 = 1)),
    if_neg (by omega : ¬ (g ≠ 0 ∧ g ≤ s ∧ 0 = 1)), if_neg (by omega : ¬ (c ≠ 0 ∧ c ≤ t ∧ 1 = 1)), if_neg (by omega : ¬ (c ≠ 0 ∧ c ≤ s ∧ 1 = 1)),
    if_neg (by omega : ¬ (c ≠ 0 ∧ c ≤ t ∧ 0 = 1)), if_neg (by omega : ¬ (c ≠ 0 ∧ c ≤ s ∧ 0 = 1))]
  push_cast
  ring

theorem mult_mean (P : Measure Ω) [IsProbabilityMeasure P] (t : ℕ) (ht : t = 1 ∨ t = 2 ∨ t = 3) (lin : ℝ) (cohort part : ℕ) (ev : Ω → ℝ) (e : ℕ → Ω → ℝ)
    (h1 : MeanZero P ev) (h2 : ∀ k, MeanZero P (e k)) :
    ∫ ω, multOutcome t lin cohort part (ev ω) (fun k => e k ω) ∂P =
      lin + part * lin + (cohort * lin + part * lin) + ((t : ℝ) - 1) * (lin + (cohort * lin + part * lin) / 10) +
        if part = 1 ∧ t = 2 ∧ cohort = 2 then 10 else if part = 1 ∧ t = 3 ∧ cohort = 2 then 20 else if part = 1 ∧ t = 3 ∧ cohort = 3 then 25 else 0 := by
  have key : ∀ (k : ℕ) (a : ℝ) (r : ℝ), (∀ ω, multOutcome t lin cohort part (ev ω) (fun k => e k ω) = a + r * ev ω + e k ω) →
      ∫ ω, multOutcome t lin cohort part (ev ω) (fun k => e k ω) ∂P = a := by
    intro k a r h
    rw [← integral_affine2 P ev (e k) h1 (h2 k) a r]
    exact integral_congr_ae (Filter.Eventually.of_forall h)
  rcases ht with rfl | rfl | rfl
  · rw [key 0 (lin + part * lin + (cohort * lin + part * lin)) 1 (fun ω => by unfold multOutcome; dsimp only; rw [if_pos rfl]; ring)]
    rw [if_neg (by omega), if_neg (by omega), if_neg (by omega)]
    push_cast
    ring
  · by_cases h : cohort = 2 ∧ part = 1
    · rw [key 2 (lin + part * lin + (cohort * lin + part * lin) + (lin + (cohort * lin + part * lin) / 10) + 10 * part) (1 + 1 / 10)
        (fun ω => by unfold multOutcome; dsimp only; rw [if_neg (by norm_num), if_pos rfl, if_pos h]; ring)]
      rw [if_pos ⟨h.2, rfl, h.1⟩, h.2]
      push_cast
      ring
    · rw [key 1 (lin + part * lin + (cohort * lin + part * lin) + (lin + (cohort * lin + part * lin) / 10)) (1 + 1 / 10)
        (fun ω => by unfold multOutcome; dsimp only; rw [if_neg (by norm_num), if_pos rfl, if_neg h]; ring)]
      rw [if_neg (by tauto), if_neg (by omega), if_neg (by omega)]
      push_cast
      ring
  · by_cases h : cohort = 2 ∧ part = 1
    · rw [key 4 (lin + part * lin + (cohort * lin + part * lin) + 2 * (lin + (cohort * lin + part * lin) / 10) + 20 * part) (1 + 2 / 10)
        (fun ω => by unfold multOutcome; dsimp only; rw [if_neg (by norm_num), if_neg (by norm_num), if_pos h]; ring)]
      rw [if_neg (by omega), if_pos ⟨h.2, rfl, h.1⟩, h.2]
      push_cast
      ring
    · by_cases h' : cohort = 3 ∧ part = 1
      · rw [key 5 (lin + part * lin + (cohort * lin + part * lin) + 2 * (lin + (cohort * lin + part * lin) / 10) + 25 * part) (1 + 2 / 10)
          (fun ω => by unfold multOutcome; dsimp only; rw [if_neg (by norm_num), if_neg (by norm_num), if_neg h, if_pos h']; ring)]
        rw [if_neg (by omega), if_neg (by tauto), if_pos ⟨h'.2, rfl, h'.1⟩, h'.2]
        push_cast
        ring
      · rw [key 3 (lin + part * lin + (cohort * lin + part * lin) + 2 * (lin + (cohort * lin + part * lin) / 10)) (1 + 2 / 10)
          (fun ω => by unfold multOutcome; dsimp only; rw [if_neg (by norm_num), if_neg (by norm_num), if_neg h, if_neg h']; ring)]
        rw [if_neg (by omega), if_neg (by tauto), if_neg (by tauto)]
        push_cast
        ring

/-- **C241.**  `gen_dgp_mult_periods`: effects 10 and 20 of cohort 2 in periods 2 and 3, and 25 of cohort 3 in period 3, whichever cohort not yet
treated is the comparison. -/
theorem C241_mult (P : Measure Ω) [IsProbabilityMeasure P] (lin : ℝ) (ev : ℕ → ℕ → ℕ → Ω → ℝ) (e : ℕ → ℕ → ℕ → ℕ → Ω → ℝ)
    (h1 : ∀ g p t, MeanZero P (ev g p t)) (h2 : ∀ g p t k, MeanZero P (e g p t k)) :
    let mu := fun g p t => ∫ ω, multOutcome t lin g p (ev g p t ω) (fun k => e g p t k ω) ∂P
    ddd mu 2 0 2 1 = 10 ∧ ddd mu 2 3 2 1 = 10 ∧ ddd mu 2 0 3 1 = 20 ∧ ddd mu 3 0 3 2 = 25 ∧ ddd mu 3 0 3 1 = 25 ∧ ddd mu 3 0 2 1 = 0 := by
  intro mu
  have hm : ∀ g p t, (t = 1 ∨ t = 2 ∨ t = 3) → mu g p t = _ := fun g p t ht => mult_mean P t ht lin g p (ev g p t) (e g p t) (h1 g p t) (h2 g p t)
  unfold ddd
  simp only [hm _ _ 1 (Or.inl rfl), hm _ _ 2 (Or.inr (Or.inl rfl)), hm _ _ 3 (Or.inr (Or.inr rfl))]
  norm_num
  refine ⟨?_, ?_, ?_, ?_, ?_, ?_⟩ <;> ring

/-- **C241.**  `gen_dgp_2periods`: no effect, and the untreated outcomes have the same trend in eligible and ineligible units of a state. -/
theorem C241_two (P : Measure Ω) [IsProbabilityMeasure P] (r1 r0 : ℝ) (ev : ℕ → ℕ → ℕ → Ω → ℝ) (e : ℕ → ℕ → ℕ → ℕ → Ω → ℝ)
    (h1 : ∀ g p t, MeanZero P (ev g p t)) (h2 : ∀ g p t k, MeanZero P (e g p t k)) :
    let mu := fun g p t => ∫ ω, twoOutcome t r1 r0 g p (ev g p t ω) (fun k => e g p t k ω) ∂P
    ddd mu 1 0 2 1 = 0 ∧ (∀ p, p ≤ 1 → mu 1 p 2 - mu 1 p 1 = r1) ∧ ∀ p, p ≤ 1 → mu 0 p 2 - mu 0 p 1 = r0 := by
  intro mu
  have key : ∀ (t g p k : ℕ) (a : ℝ), (∀ ω, twoOutcome t r1 r0 g p (ev g p t ω) (fun k => e g p t k ω) = a + 1 * ev g p t ω + e g p t k ω) →
      mu g p t = a := by
    intro t g p k a h
    rw [← integral_affine2 P (ev g p t) (e g p t k) (h1 _ _ _) (h2 _ _ _ k) a 1]
    exact integral_congr_ae (Filter.Eventually.of_forall h)
  have a1 : mu 1 1 2 = 3 * r1 := key 2 1 1 2 _ fun ω => by unfold twoOutcome; norm_num; ring
  have a2 : mu 1 1 1 = 2 * r1 := key 1 1 1 0 _ fun ω => by unfold twoOutcome; norm_num; ring
  have a3 : mu 1 0 2 = 2 * r1 := key 2 1 0 1 _ fun ω => by unfold twoOutcome; norm_num; ring
  have a4 : mu 1 0 1 = r1 := key 1 1 0 0 _ fun ω => by unfold twoOutcome; norm_num
  have a5 : mu 0 1 2 = 3 * r0 := key 2 0 1 1 _ fun ω => by unfold twoOutcome; norm_num; ring
  have a6 : mu 0 1 1 = 2 * r0 := key 1 0 1 0 _ fun ω => by unfold twoOutcome; norm_num; ring
  have a7 : mu 0 0 2 = 2 * r0 := key 2 0 0 1 _ fun ω => by unfold twoOutcome; norm_num; ring
  have a8 : mu 0 0 1 = r0 := key 1 0 0 0 _ fun ω => by unfold twoOutcome; norm_num
  refine ⟨?_, fun p hp => ?_, fun p hp => ?_⟩
  · unfold ddd
    rw [a1, a2, a3, a4, a5, a6, a7, a8]
    ring
  · interval_cases p
    · rw [a3, a4]; ring
    · rw [a1, a2]; ring
  · interval_cases p
    · rw [a7, a8]; ring
    · rw [a5, a6]; ring

/-- **C241.**  `generate_simple_ddd_data`: the triple difference of mean outcomes is `att`. -/
theorem C241_simple (P : Measure Ω) [IsProbabilityMeasure P] (att x1 x2 : ℝ) (alpha : ℕ → ℕ → ℕ → Ω → ℝ) (e : ℕ → ℕ → ℕ → ℕ → Ω → ℝ)
    (h1 : ∀ g p t, MeanZero P (alpha g p t)) (h2 : ∀ g p t k, MeanZero P (e g p t k)) :
    ddd (fun g p t => ∫ ω, simpleOutcome att t x1 x2 g p (alpha g p t ω) (fun k => e g p t k ω) ∂P) 1 0 2 1 = att := by
  have key : ∀ (t g p k : ℕ) (a : ℝ), (∀ ω, simpleOutcome att t x1 x2 g p (alpha g p t ω) (fun k => e g p t k ω) =
      a + 1 * alpha g p t ω + e g p t k ω) → ∫ ω, simpleOutcome att t x1 x2 g p (alpha g p t ω) (fun k => e g p t k ω) ∂P = a := by
    intro t g p k a h
    rw [← integral_affine2 P (alpha g p t) (e g p t k) (h1 _ _ _) (h2 _ _ _ k) a 1]
    exact integral_congr_ae (Filter.Eventually.of_forall h)
  have pre : ∀ g p : ℕ, ∫ ω, simpleOutcome att 1 x1 x2 g p (alpha g p 1 ω) (fun k => e g p 1 k ω) ∂P =
      2 + 5 * g - 2 * p + 5 / 10 * x1 + 3 / 10 * x2 + 4 * g * p := fun g p => key 1 g p 0 _ fun ω => by
    unfold simpleOutcome; rw [if_pos rfl]; ring
  have post : ∀ g p : ℕ, ∫ ω, simpleOutcome att 2 x1 x2 g p (alpha g p 2 ω) (fun k => e g p 2 k ω) ∂P =
      2 + 5 * g - 2 * p + 3 + 5 / 10 * x1 + 3 / 10 * x2 + 4 * g * p + 2 * g + 3 * p + att * g * p := fun g p => key 2 g p 1 _ fun ω => by
    unfold simpleOutcome; rw [if_neg (by norm_num)]; ring
  unfold ddd
  simp only [pre, post]
  push_cast
  ring

/-- The hypotheses are met by normal noise: eight cohorts, cohort 3 in period 4 has effect `10 * 3 * 2`. -/
example (lin : ℝ) : ddd (fun g p t => ∫ ω, scalableOutcome (cohortValues 8) 10 t lin g p ω ω (fun _ => ω) ∂(ProbabilityTheory.gaussianReal 0 1)) 3 0 4 2 = 60 := by
  have hz : MeanZero (ProbabilityTheory.gaussianReal 0 1) fun ω : ℝ => ω :=
    ⟨ProbabilityTheory.memLp_id_gaussianReal 1 |>.integrable (by norm_num), ProbabilityTheory.integral_id_gaussianReal⟩
  rw [C241_scalable (ProbabilityTheory.gaussianReal 0 1) 8 10 lin (fun _ _ _ ω => ω) (fun _ _ _ ω => ω) (fun _ _ _ _ ω => ω) (fun _ _ _ => hz)
    (fun _ _ _ => hz) (fun _ _ _ _ => hz) 3 0 4 2 (by norm_num) (Or.inl rfl) (by norm_num) (by norm_num)]
  norm_num

/-! ## C242 -/

/-- **C242, violated.**  `gen_did_scalable` does not have parallel trends given the covariates: the difference in differences of mean outcomes between
a treated and the never-treated cohort is the documented effect plus `(t - s) g / 10` times the outcome index. -/
theorem C242_did_violated (P : Measure Ω) [IsProbabilityMeasure P] (n : ℕ) (attBase lin : ℝ) (ev e0 : ℕ → ℕ → Ω → ℝ) (eg : ℕ → ℕ → ℕ → Ω → ℝ)
    (h1 : ∀ g t, MeanZero P (ev g t)) (h2 : ∀ g t, MeanZero P (e0 g t)) (h3 : ∀ g t k, MeanZero P (eg g t k))
    (g t s : ℕ) (hg : 2 ≤ g ∧ g ≤ n + 1) (ht : g ≤ t) (hs : s < g) (hlin : lin ≠ 0) :
    let mu := fun g t => ∫ ω, didOutcome (cohortValues n) attBase t lin g (ev g t ω) (e0 g t ω) (fun k => eg g t k ω) ∂P
    did mu g 0 t s = attBase * g * ((t : ℝ) - g + 1) + ((t : ℝ) - s) * g / 10 * lin ∧
      did mu g 0 t s ≠ attBase * g * ((t : ℝ) - g + 1) := by
  intro mu
  have mg : g ∈ cohortValues n := by
    simp only [cohortValues, List.mem_cons, List.mem_map, List.mem_range]
    exact Or.inr ⟨g - 2, by omega, by omega⟩
  have mc : 0 ∈ cohortValues n := by simp [cohortValues]
  have hm : ∀ g t, g ∈ cohortValues n → mu g t = _ := fun g t hg => did_mean P (cohortValues n) attBase t lin g hg (ev g t) (e0 g t) (eg g t) (h1 g t)
    (h2 g t) (h3 g t)
  have hval : did mu g 0 t s = attBase * g * ((t : ℝ) - g + 1) + ((t : ℝ) - s) * g / 10 * lin := by
    unfold did
    rw [hm g t mg, hm g s mg, hm 0 t mc, hm 0 s mc, if_pos (by omega), if_neg (by omega), if_neg (by simp), if_neg (by simp)]
    push_cast
    ring
  refine ⟨hval, ?_⟩
  rw [hval]
  have h1 : (0 : ℝ) < g := by exact_mod_cast (by omega : 0 < g)
  have h2 : (s : ℝ) < t := by exact_mod_cast (by omega : s < t)
  have : ((t : ℝ) - s) * g / 10 * lin ≠ 0 := mul_ne_zero (by have := mul_pos (sub_pos.2 h2) h1; positivity) hlin
  intro h
  exact this (by linarith)

/-- Type 4 at covariates zero: the index is 210, and the difference in differences of cohort 2 in period 2 is 62 instead of 20. -/
example : did (fun g t => ∫ ω, didOutcome (cohortValues 8) 10 t (freg b1 (orCovars 4 0)) g ω ω (fun _ => ω) ∂(ProbabilityTheory.gaussianReal 0 1)) 2 0 2 1 =
    62 := by
  have hz : MeanZero (ProbabilityTheory.gaussianReal 0 1) fun ω : ℝ => ω :=
    ⟨ProbabilityTheory.memLp_id_gaussianReal 1 |>.integrable (by norm_num), ProbabilityTheory.integral_id_gaussianReal⟩
  have hl : freg b1 (orCovars 4 0) = 210 := by simp [freg, orCovars]
  rw [hl]
  rw [(C242_did_violated (ProbabilityTheory.gaussianReal 0 1) 8 10 210 (fun _ _ ω => ω) (fun _ _ ω => ω) (fun _ _ _ ω => ω) (fun _ _ => hz)
    (fun _ _ => hz) (fun _ _ _ => hz) 2 2 1 (by norm_num) (by norm_num) (by norm_num) (by norm_num)).1]
  norm_num

end Verif.Sim
