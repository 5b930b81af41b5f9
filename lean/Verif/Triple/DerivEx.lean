import Verif.Triple.DerivRC
import Verif.DR.JackknifeEx

set_option linter.unusedSectionVars false
set_option linter.unusedSimpArgs false

/-!
# C148: exact solvers, satisfiable hypotheses, and the counterexample for `ddd_rc` with `dr`
-/

namespace Verif.Triple

open Verif.DR (mean ind fitted dot upw psOf logistic RefitOLS RefitLogit IsGramInv wmean cellSel preK postK hmean alrOLS preGap
  wTreatRC wContRC NormalEq ScoreEq)
open Filter Topology

/-! ## Exact solvers for one covariate -/

section Solvers
variable {σ : Type*} [Fintype σ] [DecidableEq σ]

/-- Least squares with one regressor. -/
noncomputable def ols1 : DR.OLS σ Unit ℝ := fun u sel x y _ =>
  (∑ j, u j * if sel j then x j () * y j else 0) / ∑ j, u j * if sel j then x j () * x j () else 0

/-- Logit coefficient for one regressor with values 0 and 1, no intercept. -/
noncomputable def coef1 (u : σ → ℝ) (d : σ → Bool) (x : σ → Unit → ℝ) (_ : Unit) : ℝ :=
  Real.log ((∑ j, u j * if d j then x j () else 0) / ∑ j, u j * if d j then 0 else x j ())

noncomputable def logit1 : DR.Logit σ Unit ℝ := fun u d x => psOf x (coef1 u d x)

lemma diff_upw (w : σ → ℝ) (i : σ) (f : σ → ℝ) : DifferentiableAt ℝ (fun t => ∑ j, upw w i t j * f j) 0 := by
  apply DifferentiableAt.fun_sum
  intro j _
  unfold upw
  by_cases h : j = i
  · simp only [h, if_true]; fun_prop
  · simp only [h, if_false]; fun_prop

lemma near_upw (w : σ → ℝ) (i : σ) (f : σ → ℝ) (p : ℝ) (h : p < ∑ j, w j * f j) :
    ∀ᶠ t in 𝓝 0, p < ∑ j, upw w i t j * f j :=
  (diff_upw w i f).continuousAt.eventually_const_lt (by beta_reduce; rw [DR.upw_zero]; exact h)

lemma ols1_smul (s : ℝ) (hs : 0 < s) (u : σ → ℝ) (sel : σ → Bool) (x : σ → Unit → ℝ) (y : σ → ℝ) :
    ols1 (fun j => s * u j) sel x y = ols1 u sel x y := by
  funext k
  unfold ols1
  simp only [mul_assoc s, ← Finset.mul_sum]
  rw [mul_div_mul_left _ _ hs.ne']

lemma logit1_smul (s : ℝ) (hs : 0 < s) (u : σ → ℝ) (d : σ → Bool) (x : σ → Unit → ℝ) :
    logit1 (fun j => s * u j) d x = logit1 u d x := by
  have : coef1 (fun j => s * u j) d x = coef1 u d x := by
    funext k
    unfold coef1
    simp only [mul_assoc s, ← Finset.mul_sum]
    rw [mul_div_mul_left _ _ hs.ne']
  unfold logit1
  rw [this]

lemma ols1_refit (w : σ → ℝ) (i : σ) (sel : σ → Bool) (x : σ → Unit → ℝ) (y : σ → ℝ)
    (h : 0 < ∑ j, w j * if sel j then x j () * x j () else 0) :
    RefitOLS w i sel x y (fun s => ols1 (upw w i s) sel x y) := by
  constructor
  · intro k
    exact (diff_upw w i _).fun_div (diff_upw w i _) (by rw [DR.upw_zero]; exact h.ne')
  · filter_upwards [near_upw w i _ 0 h] with t ht
    intro k
    set β := ols1 (upw w i t) sel x y with hβ
    have e : ∑ j with sel j = true, upw w i t j * (y j - ∑ l, x j l * β l) * x j k =
        (∑ j, upw w i t j * if sel j then x j () * y j else 0) -
          β () * ∑ j, upw w i t j * if sel j then x j () * x j () else 0 := by
      rw [Finset.sum_filter, Finset.mul_sum, ← Finset.sum_sub_distrib]
      refine Finset.sum_congr rfl fun j _ => ?_
      by_cases hj : sel j = true <;> simp [hj]
      ring
    rw [e, hβ]
    unfold ols1
    rw [div_mul_cancel₀ _ ht.ne', sub_self]

lemma logit1_refit (w : σ → ℝ) (i : σ) (d : σ → Bool) (x : σ → Unit → ℝ) (hx : ∀ j, x j () = 0 ∨ x j () = 1)
    (h1 : 0 < ∑ j, w j * if d j then x j () else 0) (h0 : 0 < ∑ j, w j * if d j then 0 else x j ()) :
    RefitLogit w i d x (fun s => coef1 (upw w i s) d x) := by
  constructor
  · intro k
    unfold coef1
    apply DifferentiableAt.log
    · exact (diff_upw w i _).fun_div (diff_upw w i _) (by rw [DR.upw_zero]; exact h0.ne')
    · rw [DR.upw_zero]; exact (div_pos h1 h0).ne'
  · filter_upwards [near_upw w i _ 0 h1, near_upw w i _ 0 h0] with t a b
    intro k
    set A := ∑ j, upw w i t j * if d j then x j () else 0 with hA
    set B := ∑ j, upw w i t j * if d j then 0 else x j () with hB
    have hp : ∀ j, x j () = 1 → psOf x (coef1 (upw w i t) d x) j = A / (A + B) := by
      intro j hj
      have : fitted x (coef1 (upw w i t) d x) j = Real.log (A / B) := by
        unfold fitted; simp [hj]; rfl
      unfold psOf
      rw [this, DR.logistic_log (div_pos a b)]
      field_simp
      ring
    have e : ∀ p, (∀ j, x j () = 1 → psOf x (coef1 (upw w i t) d x) j = p) →
        ∑ j, upw w i t j * ((if d j then 1 else 0) - psOf x (coef1 (upw w i t) d x) j) * x j k = A - p * (A + B) := by
      intro p hp
      rw [mul_add, ← sub_sub, hA, hB, Finset.mul_sum, Finset.mul_sum, ← Finset.sum_sub_distrib, ← Finset.sum_sub_distrib]
      refine Finset.sum_congr rfl fun j _ => ?_
      rcases hx j with hj | hj
      · simp [hj]
      · rw [hp j hj]
        by_cases hd : d j = true <;> simp [hd, hj] <;> ring
    rw [e _ hp, div_mul_cancel₀ _ (by positivity), sub_self]

lemma gram1 (v : σ → ℝ) (x : σ → Unit → ℝ) (h : mean (fun j => v j * x j () * x j ()) ≠ 0) :
    IsGramInv v x (fun _ _ => (mean fun j => v j * x j () * x j ())⁻¹) := by
  intro k m
  simp [h]

end Solvers

/-! ## Designs with one zero-one covariate -/

variable {ι : Type*} [Fintype ι] [DecidableEq ι]

/-- Exact fits; the information matrix is the one of the data. -/
noncomputable def fits1 (sg : ι → ℕ) (x : ι → Unit → ℝ) : Fits sg Unit ℝ where
  ols _ := ols1
  logit _ := logit1
  hess c ps := fun _ _ => (mean fun j : Sub sg c => ps j * (1 - ps j) * 1 * x j.1 () * x j.1 ())⁻¹
  inv G := fun _ _ => (G () ())⁻¹

noncomputable def fitsRC1 (sg : ι → ℕ) (x : ι → Unit → ℝ) : FitsRC sg Unit ℝ where
  ols _ := ols1
  logit _ := logit1
  hess c ps := fun _ _ => (mean fun j : Sub sg c => ps j * (1 - ps j) * 1 * x j.1 () * x j.1 ())⁻¹
  inv G := fun _ _ => (G () ())⁻¹

lemma fits1_scale (sg : ι → ℕ) (x : ι → Unit → ℝ) : ScaleFree (fits1 sg x) :=
  ⟨fun _ s u sel x y hs => ols1_smul s hs u sel x y, fun _ s u d x hs => logit1_smul s hs u d x⟩

lemma fitsRC1_scale (sg : ι → ℕ) (x : ι → Unit → ℝ) : ScaleFreeRC (fitsRC1 sg x) :=
  ⟨fun _ s u sel x y hs => ols1_smul s hs u sel x y, fun _ s u d x hs => logit1_smul s hs u d x⟩

/-- Sum over a comparison as a sum over all units. -/
lemma sum_comparison (sg : ι → ℕ) (c : ℕ) (g : ι → ℝ) :
    ∑ j : Sub sg c, g j.1 = ∑ i, if sg i = 4 ∨ sg i = c then g i else 0 := by
  rw [← Finset.sum_filter]
  exact (Finset.sum_subtype _ (fun i => by simp) g).symm

/-- Numbers of treated and comparison observations with `x = 1`; the design is fine when both are positive. -/
structure Fine (sg : ι → ℕ) (x : ι → Unit → ℝ) (hi level : ℝ) (c : ℕ) (A B : ℝ) : Prop where
  sumA : ∑ j : Sub sg c, (if pa4 sg c j then x j.1 () else 0) = A
  sumB : ∑ j : Sub sg c, (if pa4 sg c j then 0 else x j.1 ()) = B
  posA : 0 < A
  posB : 0 < B
  cap : A / (A + B) < hi
  half : 1 / 2 < hi
  lvl : A / (A + B) ≠ level
  lvl' : 1 / 2 ≠ level

lemma Fine.ps {sg : ι → ℕ} {x : ι → Unit → ℝ} {hi level : ℝ} {c : ℕ} {A B : ℝ} (f : Fine sg x hi level c A B)
    (hx : ∀ j, x j () = 0 ∨ x j () = 1) (j : Sub sg c) :
    logit1 (onSub sg c fun _ => (1:ℝ)) (pa4 sg c) (onSub sg c x) j = if x j.1 () = 1 then A / (A + B) else 1 / 2 := by
  unfold logit1 psOf
  have hA : (∑ j : Sub sg c, (onSub sg c fun _ => (1:ℝ)) j * if pa4 sg c j then onSub sg c x j () else 0) = A := by
    rw [← f.sumA]; exact Finset.sum_congr rfl fun k _ => one_mul _
  have hB : (∑ j : Sub sg c, (onSub sg c fun _ => (1:ℝ)) j * if pa4 sg c j then 0 else onSub sg c x j ()) = B := by
    rw [← f.sumB]; exact Finset.sum_congr rfl fun k _ => one_mul _
  have hA0 := f.posA
  have hB0 := f.posB
  have e : fitted (onSub sg c x) (coef1 (onSub sg c fun _ => (1:ℝ)) (pa4 sg c) (onSub sg c x)) j =
      x j.1 () * Real.log (A / B) := by
    unfold fitted coef1
    rw [hA, hB]
    simp [onSub]
  rw [e]
  rcases hx j.1 with h | h
  · rw [h]; simp [logistic]; norm_num
  · rw [h, one_mul, if_pos rfl, DR.logistic_log (div_pos hA0 hB0)]
    field_simp
    ring

lemma Fine.interior {sg : ι → ℕ} {x : ι → Unit → ℝ} {hi level : ℝ} {c : ℕ} {A B : ℝ} (f : Fine sg x hi level c A B)
    (hx : ∀ j, x j () = 0 ∨ x j () = 1) (j : Sub sg c) :
    logit1 (onSub sg c fun _ => (1:ℝ)) (pa4 sg c) (onSub sg c x) j < hi ∧
      logit1 (onSub sg c fun _ => (1:ℝ)) (pa4 sg c) (onSub sg c x) j ≠ level := by
  rw [f.ps hx]
  split_ifs
  · exact ⟨f.cap, f.lvl⟩
  · exact ⟨f.half, f.lvl'⟩

lemma Fine.logit {sg : ι → ℕ} {x : ι → Unit → ℝ} {hi level : ℝ} {c : ℕ} {A B : ℝ} (f : Fine sg x hi level c A B)
    (hx : ∀ j, x j () = 0 ∨ x j () = 1) (i : Sub sg c) : ∃ γ : ℝ → Unit → ℝ,
    RefitLogit (onSub sg c fun _ => (1:ℝ)) i (pa4 sg c) (onSub sg c x) γ ∧
    (∀ᶠ s in 𝓝 0, logit1 (upw (onSub sg c fun _ => (1:ℝ)) i s) (pa4 sg c) (onSub sg c x) = psOf (onSub sg c x) (γ s)) ∧
    IsGramInv (fun j => psOf (onSub sg c x) (γ 0) j * (1 - psOf (onSub sg c x) (γ 0) j) * onSub sg c (fun _ => (1:ℝ)) j)
      (onSub sg c x) (fun _ _ => (mean fun j : Sub sg c => psOf (onSub sg c x) (γ 0) j *
        (1 - psOf (onSub sg c x) (γ 0) j) * 1 * x j.1 () * x j.1 ())⁻¹) := by
  have hA0 := f.posA
  have hB0 := f.posB
  refine ⟨fun s => coef1 (upw (onSub sg c fun _ => (1:ℝ)) i s) (pa4 sg c) (onSub sg c x), ?_, ?_, ?_⟩
  · apply logit1_refit _ _ _ _ (fun j => hx j.1)
    · rw [show (∑ j : Sub sg c, (onSub sg c fun _ => (1:ℝ)) j * if pa4 sg c j then onSub sg c x j () else 0) = A by
        rw [← f.sumA]; exact Finset.sum_congr rfl fun k _ => one_mul _]
      exact f.posA
    · rw [show (∑ j : Sub sg c, (onSub sg c fun _ => (1:ℝ)) j * if pa4 sg c j then 0 else onSub sg c x j ()) = B by
        rw [← f.sumB]; exact Finset.sum_congr rfl fun k _ => one_mul _]
      exact f.posB
  · exact Eventually.of_forall fun s => rfl
  · refine gram1 _ _ ?_
    beta_reduce
    rw [DR.upw_zero]
    have : Nonempty (Sub sg c) := ⟨i⟩
    have hcard : (0:ℝ) < Fintype.card (Sub sg c) := by exact_mod_cast Fintype.card_pos
    unfold mean
    refine (div_pos ?_ hcard).ne'
    have hterm : ∀ j : Sub sg c, psOf (onSub sg c x) (coef1 (onSub sg c fun _ => (1:ℝ)) (pa4 sg c) (onSub sg c x)) j *
        (1 - psOf (onSub sg c x) (coef1 (onSub sg c fun _ => (1:ℝ)) (pa4 sg c) (onSub sg c x)) j) *
        onSub sg c (fun _ => (1:ℝ)) j * onSub sg c x j () * onSub sg c x j () =
        A / (A + B) * (1 - A / (A + B)) * (x j.1 ()) := by
      intro j
      have := f.ps hx j
      unfold logit1 at this
      rw [this]
      unfold onSub
      rcases hx j.1 with h | h <;> simp [h]
    rw [Finset.sum_congr rfl fun j _ => hterm j, ← Finset.mul_sum]
    have hs : ∑ j : Sub sg c, x j.1 () = A + B := by
      rw [← f.sumA, ← f.sumB, ← Finset.sum_add_distrib]
      refine Finset.sum_congr rfl fun j _ => ?_
      split_ifs <;> simp
    rw [hs]
    have : 1 - A / (A + B) = B / (A + B) := by field_simp; ring
    rw [this]
    positivity

lemma normalize_one [Nonempty ι] : DR.normalize (fun _ : ι => (1:ℝ)) = fun _ => 1 := by
  funext k
  unfold DR.normalize mean
  simp

lemma cellSel_num (sg : ι → ℕ) (c : ℕ) (post : ι → Bool) (pre treat : Bool) (j : Sub sg c) :
    cellNum sg c post pre treat j = if cellSel (pa4 sg c) (onSub sg c post) pre treat j then 1 else 0 := by
  unfold cellNum cellSel preK postK
  cases pre <;> cases treat <;> cases h : pa4 sg c j <;> cases h' : onSub sg c post j <;> simp [ind, h, h']

/-- Exact fits are smooth on a fine panel design. -/
lemma fits1_smooth [Nonempty ι] (sg : ι → ℕ) (m : Est) (hi level : ℝ) (x : ι → Unit → ℝ) (dy : ι → ℝ) (i : ι)
    (hx : ∀ j, x j () = 0 ∨ x j () = 1) (A B : ℕ → ℝ) (f : ∀ c ∈ [1, 2, 3], Fine sg x hi level c (A c) (B c)) :
    Smooth (fits1 sg x) m hi level (DR.normalize fun _ => 1) x dy i := by
  rw [normalize_one]
  have hB : ∀ c ∈ [1, 2, 3], ∑ j : Sub sg c, (onSub sg c fun _ => (1:ℝ)) j * (if paComp sg c j then
      onSub sg c x j () * onSub sg c x j () else 0) = B c := by
    intro c hc
    rw [← (f c hc).sumB]
    refine Finset.sum_congr rfl fun j _ => ?_
    have h4 : paComp sg c j = !pa4 sg c j := by
      have hc4 : c ≠ 4 := by rintro rfl; simp at hc
      unfold paComp pa4
      rcases j.2 with h | h
      · simp [h, Ne.symm hc4]
      · simp [h, hc4]
    rw [h4]
    unfold onSub
    cases pa4 sg c j <;> rcases hx j.1 with h | h <;> simp [h]
  refine ⟨fun _ c hc h => ⟨?_, ?_⟩, fun _ c hc h => ?_, fun _ c hc j => (f c hc).interior hx j⟩
  · apply ols1_refit
    rw [hB c hc]; exact (f c hc).posB
  · refine gram1 (fun j : Sub sg c => (1:ℝ) * ind (paComp sg c) j) (onSub sg c x) ?_
    have : Nonempty (Sub sg c) := ⟨⟨i, h⟩⟩
    have hcard : (0:ℝ) < Fintype.card (Sub sg c) := by exact_mod_cast Fintype.card_pos
    unfold mean
    refine (div_pos ?_ hcard).ne'
    rw [show ∑ j : Sub sg c, (1:ℝ) * ind (paComp sg c) j * onSub sg c x j () * onSub sg c x j () = B c by
      rw [← hB c hc]
      refine Finset.sum_congr rfl fun j _ => ?_
      unfold onSub ind
      cases paComp sg c j <;> simp]
    exact (f c hc).posB
  · exact (f c hc).logit hx ⟨i, h⟩

/-- Exact fits are smooth on a fine repeated cross-section design whose cells have observations with `x = 1`. -/
lemma fitsRC1_smooth [Nonempty ι] (sg : ι → ℕ) (m : Est) (hi level : ℝ) (x : ι → Unit → ℝ) (y : ι → ℝ) (post : ι → Bool)
    (i : ι) (hx : ∀ j, x j () = 0 ∨ x j () = 1) (A B : ℕ → ℝ) (f : ∀ c ∈ [1, 2, 3], Fine sg x hi level c (A c) (B c))
    (hcell : ∀ c ∈ [1, 2, 3], ∀ pre treat, ∃ j : Sub sg c, cellSel (pa4 sg c) (onSub sg c post) pre treat j = true ∧
      x j.1 () = 1) :
    SmoothRC (fitsRC1 sg x) m hi level (DR.normalize fun _ => 1) x y post i := by
  rw [normalize_one]
  have hB : ∀ c ∈ [1, 2, 3], ∀ pre treat, 0 < ∑ j : Sub sg c, (onSub sg c fun _ => (1:ℝ)) j *
      (if cellSel (pa4 sg c) (onSub sg c post) pre treat j then onSub sg c x j () * onSub sg c x j () else 0) := by
    intro c hc pre treat
    obtain ⟨j, hj, hj1⟩ := hcell c hc pre treat
    refine Finset.sum_pos' (fun k _ => ?_) ⟨j, Finset.mem_univ _, ?_⟩
    · unfold onSub
      rw [one_mul]
      split_ifs
      · exact mul_self_nonneg _
      · exact le_refl _
    · rw [if_pos hj]; unfold onSub; rw [hj1]; norm_num
  refine ⟨fun _ c hc h pre treat _ => ⟨?_, ?_⟩, fun _ c hc h => ?_, fun _ c hc j => (f c hc).interior hx j⟩
  · exact ols1_refit _ _ _ _ _ (hB c hc pre treat)
  · refine gram1 (fun j : Sub sg c => (1:ℝ) * cellNum sg c post pre treat j) (onSub sg c x) ?_
    have : Nonempty (Sub sg c) := ⟨⟨i, h⟩⟩
    have hcard : (0:ℝ) < Fintype.card (Sub sg c) := by exact_mod_cast Fintype.card_pos
    unfold mean
    refine (div_pos ?_ hcard).ne'
    refine lt_of_lt_of_eq (hB c hc pre treat) (Finset.sum_congr rfl fun j _ => ?_)
    beta_reduce
    rw [cellSel_num]
    unfold onSub
    split_ifs <;> simp
  · exact (f c hc).logit hx ⟨i, h⟩

/-! ## Panel example -/

/-- Two units per subgroup, all with `x = 1` except one unit of subgroup 1. -/
def pSg : Fin 9 → ℕ := ![4, 4, 3, 3, 2, 2, 1, 1, 1]
def pX (i : Fin 9) (_ : Unit) : ℝ := ![1, 1, 1, 1, 1, 1, 1, 1, 0] i
def pDy : Fin 9 → ℝ := ![5, 7, 1, 2, 0, 3, 1, 1, 4]

lemma p_fine (c : ℕ) (hc : c ∈ [1, 2, 3]) : Fine pSg pX (999/1000) (995/1000) c 2 2 := by
  have hA : ∑ j : Sub pSg c, (if pa4 pSg c j then pX j.1 () else 0) = 2 := by
    have := sum_comparison pSg c (fun i => if pSg i = 4 then pX i () else 0)
    simp only [pa4, decide_eq_true_eq]
    rw [this]
    fin_cases hc <;> simp [Fin.sum_univ_succ, pSg, pX] <;> norm_num
  have hB : ∑ j : Sub pSg c, (if pa4 pSg c j then 0 else pX j.1 ()) = 2 := by
    have := sum_comparison pSg c (fun i => if pSg i = 4 then 0 else pX i ())
    simp only [pa4, decide_eq_true_eq]
    rw [this]
    fin_cases hc <;> simp [Fin.sum_univ_succ, pSg, pX] <;> norm_num
  exact ⟨hA, hB, by norm_num, by norm_num, by norm_num, by norm_num, by norm_num, by norm_num⟩

lemma pX01 (j : Fin 9) : pX j () = 0 ∨ pX j () = 1 := by fin_cases j <;> simp [pX]

lemma p_runs (m : Est) : ∃ r, dddPanel (fits1 pSg pX) m (999/1000) (995/1000) pDy (fun _ => 0) pX (fun _ => 1) = .ok r := by
  have hT : ∀ c ∈ [1, 2, 3], mean (fun i : Sub pSg c => onSub pSg c (fun _ => (1:ℝ)) i * ind (pa4 pSg c) i) ≠ 0 := by
    intro c hc
    have hn : Nonempty (Sub pSg c) := ⟨⟨0, Or.inl rfl⟩⟩
    have hcard : (0:ℝ) < Fintype.card (Sub pSg c) := by exact_mod_cast Fintype.card_pos
    refine (div_pos (Finset.sum_pos' (fun k _ => ?_) ⟨⟨0, Or.inl rfl⟩, Finset.mem_univ _, ?_⟩) hcard).ne'
    · unfold onSub ind; split_ifs <;> simp
    · simp [onSub, ind, pa4, pSg]
  have hC : ∀ c ∈ [1, 2, 3], contSub (fits1 pSg pX) m (999/1000) (995/1000) c pX (onSub pSg c fun _ => (1:ℝ)) ≠ 0 := by
    intro c hc
    obtain ⟨j, hj⟩ : ∃ j, pSg j = c := by
      fin_cases hc
      · exact ⟨6, rfl⟩
      · exact ⟨4, rfl⟩
      · exact ⟨2, rfl⟩
    have hc4 : c ≠ 4 := by rintro rfl; simp at hc
    have hn : Nonempty (Sub pSg c) := ⟨⟨0, Or.inl rfl⟩⟩
    have hcard : (0:ℝ) < Fintype.card (Sub pSg c) := by exact_mod_cast Fintype.card_pos
    have hp4 : pa4 pSg c ⟨j, Or.inr hj⟩ = false := by simp [pa4, hj, hc4]
    unfold contSub
    split_ifs with hm
    · refine (div_pos (Finset.sum_pos' (fun k _ => ?_) ⟨⟨j, Or.inr hj⟩, Finset.mem_univ _, ?_⟩) hcard).ne'
      · unfold onSub ind; split_ifs <;> simp
      · simp [onSub, ind, paComp, hj]
    · have hps : (fun i => min ((fits1 pSg pX).logit c (onSub pSg c fun _ => (1:ℝ)) (pa4 pSg c) (onSub pSg c pX) i) (999/1000)) =
          fun _ => 1 / 2 := by
        funext k
        have := (p_fine c hc).ps pX01 k
        show min (logit1 _ _ _ _) _ = _
        rw [this]
        split_ifs <;> norm_num
      rw [hps]
      refine (div_pos (Finset.sum_pos' (fun k _ => ?_) ⟨⟨j, Or.inr hj⟩, Finset.mem_univ _, ?_⟩) hcard).ne'
      · unfold DR.wCont onSub ind; split_ifs <;> norm_num
      · unfold DR.wCont DR.trim ind onSub
        simp only [hp4]
        norm_num
  have hd : ∀ c ∈ [1, 2, 3], ∃ r, compDid (fits1 pSg pX).inv m pSg c (nuis (fits1 pSg pX) m (999/1000) (995/1000) c
      (fun _ => 1) pX fun i => pDy i - 0) (fun _ => 1) pX (fun i => pDy i - 0) = .ok r := by
    intro c hc
    have hc4 : c ≠ 4 := by rintro rfl; simp at hc
    unfold compDid
    rw [if_neg (by rw [mean_wTreat_sub]; exact hT c hc), if_neg (by rw [mean_wControl_sub _ _ _ _ hc4]; exact hC c hc)]
    exact ⟨_, rfl⟩
  obtain ⟨r3, h3⟩ := hd 3 (by simp)
  obtain ⟨r2, h2⟩ := hd 2 (by simp)
  obtain ⟨r1, h1⟩ := hd 1 (by simp)
  refine ⟨combine3 pSg r3 r2 r1, ?_⟩
  unfold dddPanel
  rw [if_neg (by simp), if_neg, if_neg, normalize_one]
  · unfold allDid
    rw [h3, h2, h1]
    rfl
  · exact not_not.2 ⟨0, rfl⟩
  · push Not; intro i; fin_cases i <;> simp [pSg]

/-- The hypotheses of `C148_panel` hold for every method and every unit on the nine-unit panel, with exact fits. -/
example (m : Est) (i : Fin 9) : ∃ r, dddPanel (fits1 pSg pX) m (999/1000) (995/1000) pDy (fun _ => 0) pX (fun _ => 1) = .ok r ∧
    HasDerivAt (fun t => attOf (dddPanel (fits1 pSg pX) m (999/1000) (995/1000) pDy (fun _ => 0) pX
      (upw (fun _ => 1) i t))) (r.2 i) 0 := by
  obtain ⟨r, hr⟩ := p_runs m
  exact ⟨r, hr, (C148_panel _ m _ _ _ _ _ _ i (fits1_scale pSg pX)
    (fits1_smooth pSg m _ _ pX _ i pX01 (fun _ => 2) (fun _ => 2) p_fine) r hr).2⟩

/-! ## Repeated cross-sections: example and counterexample -/

/-- The seven observations of `DR.JackknifeEx` as subgroups 4 and 3, and two observations (pre, post) of each of subgroups 2, 1. -/
def cSg : Fin 11 → ℕ := ![4, 4, 4, 3, 3, 3, 3, 2, 2, 1, 1]
def cP : Fin 11 → Bool := ![false, true, true, false, false, false, true, false, true, false, true]
def cX (i : Fin 11) (_ : Unit) : ℝ := ![1, 1, 1, 1, 1, 0, 1, 1, 1, 1, 1] i
def cY : Fin 11 → ℝ := ![0, 0, 0, 1, -1, 0, 0, 0, 0, 0, 0]

lemma cX01 (j : Fin 11) : cX j () = 0 ∨ cX j () = 1 := by fin_cases j <;> simp [cX]

lemma c_fine (c : ℕ) (hc : c ∈ [1, 2, 3]) : Fine cSg cX (999/1000) (995/1000) c 3 (if c = 3 then 3 else 2) := by
  have hA : ∑ j : Sub cSg c, (if pa4 cSg c j then cX j.1 () else 0) = 3 := by
    have := sum_comparison cSg c (fun i => if cSg i = 4 then cX i () else 0)
    simp only [pa4, decide_eq_true_eq]
    rw [this]
    fin_cases hc <;> simp [Fin.sum_univ_succ, cSg, cX] <;> norm_num
  have hB : ∑ j : Sub cSg c, (if pa4 cSg c j then 0 else cX j.1 ()) = if c = 3 then 3 else 2 := by
    have := sum_comparison cSg c (fun i => if cSg i = 4 then 0 else cX i ())
    simp only [pa4, decide_eq_true_eq]
    rw [this]
    fin_cases hc <;> simp [Fin.sum_univ_succ, cSg, cX] <;> norm_num
  exact ⟨hA, hB, by norm_num, by split_ifs <;> norm_num, by split_ifs <;> norm_num, by norm_num,
    by split_ifs <;> norm_num, by norm_num⟩

lemma c_cells (c : ℕ) (hc : c ∈ [1, 2, 3]) (pre treat : Bool) :
    ∃ j : Sub cSg c, cellSel (pa4 cSg c) (onSub cSg c cP) pre treat j = true ∧ cX j.1 () = 1 := by
  have h : ∃ j, (cSg j = 4 ∨ cSg j = c) ∧ decide (cSg j = 4) = treat ∧ cP j = !pre ∧ cX j () = 1 := by
    cases treat <;> cases pre
    · fin_cases hc
      · exact ⟨10, by simp [cSg, cP, cX]⟩
      · exact ⟨8, by simp [cSg, cP, cX]⟩
      · exact ⟨6, by simp [cSg, cP, cX]⟩
    · fin_cases hc
      · exact ⟨9, by simp [cSg, cP, cX]⟩
      · exact ⟨7, by simp [cSg, cP, cX]⟩
      · exact ⟨3, by simp [cSg, cP, cX]⟩
    · exact ⟨1, by simp [cSg, cP, cX]⟩
    · exact ⟨0, by simp [cSg, cP, cX]⟩
  obtain ⟨j, h1, h2, h3, h4⟩ := h
  refine ⟨⟨j, h1⟩, ?_, h4⟩
  unfold cellSel pa4 onSub
  simp [h2, h3]

lemma c_ps (m : Est) (hm : m ≠ .reg) (c : ℕ) (hc : c ∈ [1, 2, 3]) (j : Sub cSg c) :
    0 < psS (fitsRC1 cSg cX) m (999/1000) c cX (onSub cSg c fun _ => (1:ℝ)) j ∧
    psS (fitsRC1 cSg cX) m (999/1000) c cX (onSub cSg c fun _ => (1:ℝ)) j < 1 ∧
    keepS (fitsRC1 cSg cX) m (995/1000) c cX (onSub cSg c fun _ => (1:ℝ)) j = true := by
  have h := (c_fine c hc).ps cX01 j
  have e : (fitsRC1 cSg cX).logit c (onSub cSg c fun _ => (1:ℝ)) (pa4 cSg c) (onSub cSg c cX) j =
      logit1 (onSub cSg c fun _ => (1:ℝ)) (pa4 cSg c) (onSub cSg c cX) j := rfl
  unfold psS keepS
  rw [if_neg hm, if_neg hm, e, h]
  refine ⟨?_, ?_, ?_⟩
  · apply lt_min _ (by norm_num)
    split_ifs <;> norm_num
  · apply min_lt_of_right_lt; norm_num
  · split_ifs <;> norm_num

lemma c_runs (m : Est) : ∃ r, dddRC (fitsRC1 cSg cX) m (999/1000) (995/1000) cY cP cX (fun _ => 1) = .ok r := by
  have hR : ∀ c ∈ [1, 2, 3], RunsS (fitsRC1 cSg cX) m (999/1000) (995/1000) c cX cP (onSub cSg c fun _ => (1:ℝ)) := by
    intro c hc
    have hn : Nonempty (Sub cSg c) := ⟨⟨0, Or.inl rfl⟩⟩
    have hcard : (0:ℝ) < Fintype.card (Sub cSg c) := by exact_mod_cast Fintype.card_pos
    have hq : ∀ pre : Bool, ∀ j : Sub cSg c, (0:ℝ) ≤ (if pre then preK (onSub cSg c cP) j else postK (onSub cSg c cP) j) := by
      intro pre j; cases pre <;> cases h : onSub cSg c cP j <;> simp [preK, postK, ind, h]
    have hqp : ∀ pre treat : Bool, ∃ j : Sub cSg c, pa4 cSg c j = treat ∧
        (if pre then preK (onSub cSg c cP) j else postK (onSub cSg c cP) j) = (1:ℝ) := by
      intro pre treat
      obtain ⟨j, hj, -⟩ := c_cells c hc pre treat
      unfold cellSel at hj
      simp only [Bool.and_eq_true, beq_iff_eq] at hj
      refine ⟨j, hj.1, ?_⟩
      cases pre <;> simp [preK, postK, ind, hj.2]
    have hT : ∀ pre : Bool, mean (wTreatRC (pa4 cSg c) (keepS (fitsRC1 cSg cX) m (995/1000) c cX (onSub cSg c fun _ => (1:ℝ)))
        (onSub cSg c fun _ => (1:ℝ)) (fun j => if pre then preK (onSub cSg c cP) j else postK (onSub cSg c cP) j)) ≠ 0 := by
      intro pre
      rw [wTreat_keep]
      obtain ⟨j, h1, h2⟩ := hqp pre true
      refine (div_pos (Finset.sum_pos' (fun k _ => ?_) ⟨j, Finset.mem_univ _, ?_⟩) hcard).ne'
      · refine mul_nonneg (by simp [onSub]) (mul_nonneg (by unfold ind; split_ifs <;> simp) (hq pre k))
      · rw [h2]; simp [onSub, ind, h1]
    have hC : m ≠ .reg → ∀ pre : Bool, mean (wContRC (pa4 cSg c)
        (keepS (fitsRC1 cSg cX) m (995/1000) c cX (onSub cSg c fun _ => (1:ℝ)))
        (psS (fitsRC1 cSg cX) m (999/1000) c cX (onSub cSg c fun _ => (1:ℝ)))
        (onSub cSg c fun _ => (1:ℝ)) (fun j => if pre then preK (onSub cSg c cP) j else postK (onSub cSg c cP) j)) ≠ 0 := by
      intro hm pre
      obtain ⟨j, h1, h2⟩ := hqp pre false
      refine (div_pos (Finset.sum_pos' (fun k _ => ?_) ⟨j, Finset.mem_univ _, ?_⟩) hcard).ne'
      · obtain ⟨a, b, d⟩ := c_ps m hm c hc k
        unfold wContRC
        refine div_nonneg (mul_nonneg (mul_nonneg (mul_nonneg (mul_nonneg ?_ ?_) a.le) ?_) (hq pre k)) (by linarith)
        · simp [ind, d]
        · simp [onSub]
        · unfold ind; split_ifs <;> simp
      · obtain ⟨a, b, d⟩ := c_ps m hm c hc j
        unfold wContRC
        beta_reduce
        rw [h2]
        simp only [ind, d, h1, onSub]
        simp
        exact div_pos a (by linarith)
    exact ⟨hT true, hT false, fun hm => ⟨hC hm true, hC hm false⟩⟩
  have h : ∀ c ∈ [1, 2, 3], ∃ r, compDidRC (fitsRC1 cSg cX) m (999/1000) (995/1000) c (DR.normalize fun _ => 1) cX cY cP =
      .ok r := fun c hc => ⟨_, (compDidRC_iff ..).2 ⟨by rw [normalize_one]; exact hR c hc, rfl⟩⟩
  obtain ⟨r3, h3⟩ := h 3 (by simp)
  obtain ⟨r2, h2⟩ := h 2 (by simp)
  obtain ⟨r1, h1⟩ := h 1 (by simp)
  refine ⟨combine3 cSg r3 r2 r1, (dddRC_iff ..).2 ⟨fun i => zero_le_one, fun i => ?_, ⟨0, rfl⟩, r3, r2, r1, h3, h2, h1, rfl⟩⟩
  fin_cases i <;> simp [cSg]

lemma c_smooth (m : Est) (i : Fin 11) :
    SmoothRC (fitsRC1 cSg cX) m (999/1000) (995/1000) (DR.normalize fun _ => 1) cX cY cP i :=
  fitsRC1_smooth cSg m _ _ cX cY cP i cX01 (fun _ => 3) (fun c => if c = 3 then 3 else 2) c_fine c_cells

/-- The hypotheses of `C148_rc` hold for `reg` and `ipw` and every observation on the eleven-observation data. -/
example (m : Est) (hm : m ≠ .dr) (i : Fin 11) :
    ∃ r, dddRC (fitsRC1 cSg cX) m (999/1000) (995/1000) cY cP cX (fun _ => 1) = .ok r ∧
    HasDerivAt (fun t => attOf (dddRC (fitsRC1 cSg cX) m (999/1000) (995/1000) cY cP cX (upw (fun _ => 1) i t))) (r.2 i) 0 := by
  obtain ⟨r, hr⟩ := c_runs m
  exact ⟨r, hr, (C148_rc _ m hm _ _ _ _ _ _ i (fitsRC1_scale cSg cX) (c_smooth m i) r hr).2⟩

/-- Observations of comparison 3. -/
def c7 (k : Fin 7) : Sub cSg 3 := ⟨Fin.castLE (by decide) k, by revert k; decide⟩

lemma c7_sum (g : Sub cSg 3 → ℝ) : ∑ j, g j = ∑ k, g (c7 k) :=
  (Fintype.sum_bijective c7 (by decide) _ _ fun _ => rfl).symm

lemma c7_card : Fintype.card (Sub cSg 3) = 7 := by decide

lemma c_psS : rcPs (fitsRC1 cSg cX) .dr (999/1000) 3 (fun _ => 1) cX = fun _ => 1 / 2 := by
  funext j
  have := (c_fine 3 (by simp)).ps cX01 j
  show (if _ then _ else min (logit1 _ _ _ _) _) = _
  rw [if_neg (by decide), this, if_pos (rfl : (3:ℕ) = 3)]
  split_ifs <;> norm_num

lemma c_keepS : rcKeep (fitsRC1 cSg cX) .dr (995/1000) 3 (fun _ => 1) cX = fun _ => true := by
  funext j
  exact (c_ps .dr (by decide) 3 (by simp) j).2.2

lemma c_out : rcOut (fitsRC1 cSg cX) .dr 3 (fun _ => 1) cX cY cP true false = fun _ => 0 := by
  funext j
  show fitted _ (ols1 _ _ _ _) j = 0
  unfold fitted ols1
  rw [c7_sum, Fin.sum_univ_seven]
  simp [c7, cellSel, pa4, onSub, cSg, cP, cX, cY]

lemma c_M : rcM (fitsRC1 cSg cX) 3 (fun _ => 1) cX cP true false = fun _ _ => 7 / 2 := by
  funext a b
  show (cellGram cSg 3 _ _ _ () ())⁻¹ = _
  unfold cellGram mean
  rw [c7_sum, c7_card, Fin.sum_univ_seven]
  simp [c7, pa4, onSub, cSg, cP, cX, cY, ind, preK]
  norm_num

lemma c_gap : gapRC (fitsRC1 cSg cX) .dr (999/1000) (995/1000) 3 (fun _ => 1) cX cY cP ⟨3, Or.inr rfl⟩ = 7 / 3 := by
  unfold gapRC
  rw [if_pos rfl, c_psS, c_keepS, c_out, c_M]
  unfold preGap DR.xmean mean
  simp only [c7_sum, c7_card, Fin.sum_univ_seven]
  simp [dot, alrOLS, wTreatRC, wContRC, c7, pa4, onSub, cSg, cP, cX, cY, ind, preK]
  norm_num

/-- **C148 violated (`ddd_rc` with `dr`).** Positive weights, exact and smooth fits, every run succeeds; yet the influence value
reported for observation 3 is not the derivative of the estimate. -/
theorem C148_rc_dr_violated : ∃ (sg : Fin 11 → ℕ) (F : FitsRC sg Unit ℝ) (y : Fin 11 → ℝ) (post : Fin 11 → Bool)
    (x : Fin 11 → Unit → ℝ) (i : Fin 11) (r : ℝ × (Fin 11 → ℝ)),
    ScaleFreeRC F ∧ SmoothRC F .dr (999/1000) (995/1000) (DR.normalize fun _ => 1) x y post i ∧
    dddRC F .dr (999/1000) (995/1000) y post x (fun _ => 1) = .ok r ∧
    (∀ᶠ t in 𝓝 0, ∃ r', dddRC F .dr (999/1000) (995/1000) y post x (upw (fun _ => 1) i t) = .ok r') ∧
    ¬ HasDerivAt (fun t => attOf (dddRC F .dr (999/1000) (995/1000) y post x (upw (fun _ => 1) i t))) (r.2 i) 0 := by
  obtain ⟨r, hr⟩ := c_runs .dr
  obtain ⟨h1, h2⟩ := C148_rc_gap _ .dr _ _ _ _ _ _ 3 (fitsRC1_scale cSg cX) (c_smooth .dr 3) r hr
  refine ⟨cSg, fitsRC1 cSg cX, cY, cP, cX, 3, r, fitsRC1_scale cSg cX, c_smooth .dr 3, hr, h1, fun h => ?_⟩
  have := h.unique h2
  rw [normalize_one] at this
  have e3 : scatter cSg 3 (gapRC (fitsRC1 cSg cX) .dr (999/1000) (995/1000) 3 (fun _ => 1) cX cY cP) 3 = 7 / 3 := by
    unfold scatter
    rw [dif_pos (show cSg 3 = 4 ∨ cSg 3 = 3 from Or.inr rfl)]
    exact c_gap
  have e2 : scatter cSg 2 (gapRC (fitsRC1 cSg cX) .dr (999/1000) (995/1000) 2 (fun _ => 1) cX cY cP) 3 = 0 := by
    unfold scatter
    rw [dif_neg (by decide)]
  have e1 : scatter cSg 1 (gapRC (fitsRC1 cSg cX) .dr (999/1000) (995/1000) 1 (fun _ => 1) cX cY cP) 3 = 0 := by
    unfold scatter
    rw [dif_neg (by decide)]
  have er : (ratio cSg 3 : ℝ) = 11 / 7 := by
    unfold ratio
    rw [c7_card]
    norm_num
  rw [e3, e2, e1, er] at this
  linarith

end Verif.Triple
