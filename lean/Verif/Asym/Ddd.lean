import Verif.Asym.Combine
import Verif.Triple.Props
import Verif.Report.PValue

set_option linter.unusedSectionVars false
set_option linter.unusedSimpArgs false

/-!
# C262: two-period triple differences with regression adjustment in large samples
-/

namespace Verif.Asym

open MeasureTheory ProbabilityTheory Filter Topology Verif.Honest Verif.DR Verif.Triple

variable {Ω 𝓧 κ : Type*} [MeasurableSpace Ω] [MeasurableSpace 𝓧] [Fintype κ] [DecidableEq κ]

/-! ## Specification -/

/-- 1 for units of subgroup `c` (4: treated and eligible, 3: treated and not eligible, 2: eligible and not treated, 1: neither). -/
def inSg (sg : 𝓧 → ℕ) (c : ℕ) (z : 𝓧) : ℝ := if sg z = c then 1 else 0

/-- The population: `y1`, `y0` are the outcomes after and before, `u1` the outcome after without treatment (it matters for subgroup 4 only), `β c` the coefficients of the
linear regression of the change on the covariates in subgroup `c`.  Triple-difference parallel trends (`triple`): without treatment the mean change of subgroup 4 would
be what the regressions of the subgroups 3 and 2 less that of subgroup 1 predict.  No comparison on its own has parallel trends. -/
structure TripleOK (P : Measure Ω) (X : ℕ → Ω → 𝓧) (sg : 𝓧 → ℕ) (y1 y0 u1 w : 𝓧 → ℝ) (x : 𝓧 → κ → ℝ) (β : ℕ → κ → ℝ) : Prop where
  subgroup : ∀ z, sg z ∈ [1, 2, 3, 4]
  nonneg : ∀ z, 0 ≤ w z
  intercept : ∃ k, ∀ z, x z k = 1
  measSg : Measurable sg
  meas_x : ∀ k, Measurable fun z => x z k
  w1 : SqInt P X w
  wy : SqInt P X fun z => w z * (y1 z - y0 z)
  wx : ∀ k, SqInt P X fun z => w z * x z k
  wxy : ∀ k, SqInt P X fun z => w z * x z k * (y1 z - y0 z)
  wxx : ∀ k l, SqInt P X fun z => w z * x z k * x z l
  treated : 0 < pop P X fun z => w z * inSg sg 4 z
  rank : ∀ c ∈ [1, 2, 3], (Matrix.of fun k l => pop P X fun z => w z * inSg sg c z * x z k * x z l).det ≠ 0
  regression : ∀ c ∈ [1, 2, 3], ∀ k, pop P X (fun z => w z * inSg sg c z * x z k * (y1 z - y0 z - ∑ l, x z l * β c l)) = 0
  triple : pop P X (fun z => w z * inSg sg 4 z * (u1 z - y0 z - (∑ l, x z l * β 3 l + ∑ l, x z l * β 2 l - ∑ l, x z l * β 1 l))) = 0
  int0 : Integrable (fun ω => w (X 0 ω) * inSg sg 4 (X 0 ω) * (u1 (X 0 ω) - y0 (X 0 ω))) P

/-- The mean effect of treatment on subgroup 4. -/
noncomputable def tripleATT (P : Measure Ω) (X : ℕ → Ω → 𝓧) (sg : 𝓧 → ℕ) (y1 u1 w : 𝓧 → ℝ) : ℝ :=
  (pop P X fun z => w z * inSg sg 4 z * (y1 z - u1 z)) / pop P X fun z => w z * inSg sg 4 z

/-- What the comparison of subgroup 4 with subgroup `c` estimates. -/
noncomputable def compMean (P : Measure Ω) (X : ℕ → Ω → 𝓧) (sg : 𝓧 → ℕ) (y1 y0 w : 𝓧 → ℝ) (x : 𝓧 → κ → ℝ) (b : κ → ℝ) : ℝ :=
  (pop P X fun z => w z * inSg sg 4 z * (y1 z - y0 z - ∑ l, x z l * b l)) / pop P X fun z => w z * inSg sg 4 z

/-- Influence of a unit on the comparison with subgroup `c`. -/
noncomputable def compInfluence (P : Measure Ω) (X : ℕ → Ω → 𝓧) (sg : 𝓧 → ℕ) (y1 y0 w : 𝓧 → ℝ) (x : 𝓧 → κ → ℝ) (c : ℕ) (b : κ → ℝ) (z : 𝓧) : ℝ :=
  (w z * inSg sg 4 z * (y1 z - y0 z - ∑ k, x z k * b k - compMean P X sg y1 y0 w x b) -
    ∑ l, (∑ k, (pop P X fun z => w z * inSg sg 4 z * x z k) * minv (fun k l => pop P X fun z => w z * inSg sg c z * x z k * x z l) k l) *
      (w z * inSg sg c z * x z l * (y1 z - y0 z - ∑ k, x z k * b k))) / pop P X fun z => w z * inSg sg 4 z

/-- Influence of a unit on the triple difference. -/
noncomputable def tripleInfluence (P : Measure Ω) (X : ℕ → Ω → 𝓧) (sg : 𝓧 → ℕ) (y1 y0 w : 𝓧 → ℝ) (x : 𝓧 → κ → ℝ) (β : ℕ → κ → ℝ) (z : 𝓧) : ℝ :=
  compInfluence P X sg y1 y0 w x 3 (β 3) z + compInfluence P X sg y1 y0 w x 2 (β 2) z - compInfluence P X sg y1 y0 w x 1 (β 1) z

/-! ## Model -/

/-- Least squares by the Gram matrix, `nuisance.py:569-654`; its inverse, `nuisance.py:405-415`.  Scores are not used by `est_method="reg"`. -/
noncomputable def regFits {ι : Type*} [Fintype ι] (sg : ι → ℕ) : Triple.Fits sg κ ℝ := ⟨fun _ => Ident.gramOLS, fun _ _ _ _ _ => 0, fun _ _ _ _ => 0, minv⟩

/-- Estimate and influence function of `ddd_panel(est_method="reg")` on the first `n` units, `ddd_panel.py:190-224`; `none` stands for an error. -/
noncomputable def dddReport (hi level : ℝ) (sg : 𝓧 → ℕ) (y1 y0 w : 𝓧 → ℝ) (x : 𝓧 → κ → ℝ) (X : ℕ → Ω → 𝓧) (n : ℕ) (ω : Ω) : Option (ℝ × (Fin n → ℝ)) :=
  match dddPanel (regFits fun i : Fin n => sg (X i ω)) .reg hi level (fun i => y1 (X i ω)) (fun i => y0 (X i ω)) (fun i => x (X i ω)) (fun i => w (X i ω)) with
  | .ok r => some r
  | .error _ => none

/-! ## One comparison in terms of moments -/

section
variable {σ : Type*} [Fintype σ] (dy v : σ → ℝ) (d : σ → Bool) (x : σ → κ → ℝ)

theorem ols_raw [Nonempty σ] : Ident.gramOLS v (notB d) x dy = bcoef (smom dy v d x) := by
  have hn : (Fintype.card σ : ℝ) ≠ 0 := Nat.cast_ne_zero.2 Fintype.card_ne_zero
  obtain ⟨c, hc⟩ : ∃ c, c = (Fintype.card σ : ℝ) := ⟨_, rfl⟩
  have hc0 : c ≠ 0 := by rw [hc]; exact hn
  have h1 : (fun k l => ∑ i with notB d i = true, v i * x i k * x i l) = fun k l => c * smom dy v d x (some k, some (some l)) := by
    funext k l
    rw [sum_controls, hc, smom]
    congr 2
    funext i
    simp only [ffun, gfun, hfun]
    ring
  have h2 : ∀ k, (∑ i with notB d i = true, v i * dy i * x i k) = c * smom dy v d x (some k, none) := by
    intro k
    rw [sum_controls, hc, smom]
    congr 2
    funext i
    simp only [ffun, gfun, hfun]
    ring
  funext k
  unfold Ident.gramOLS bcoef Matrix.mulVec dotProduct
  refine Finset.sum_congr rfl fun l _ => ?_
  dsimp only
  rw [h2, h1]
  change minv (fun k l => c * smom dy v d x (some k, some (some l))) k l * _ = _
  rw [minv_smul c hc0]
  field_simp

/-- Mean of a weighted residual of the comparison units. -/
theorem res_some (b : κ → ℝ) (k : κ) : (DR.mean fun i => v i * (1 - dn d i) * x i k * (dy i - fitted x b i)) =
    smom dy v d x (some k, none) - ∑ l, smom dy v d x (some k, some (some l)) * b l := by
  unfold fitted smom DR.mean
  have : ∀ i, v i * (1 - dn d i) * x i k * (dy i - ∑ l, x i l * b l) = ffun dy v d x (some k, none) i - ∑ l, ffun dy v d x (some k, some (some l)) i * b l := fun i => by
    simp only [ffun, gfun, hfun]
    rw [mul_sub, Finset.mul_sum]
    congr 1
    exact Finset.sum_congr rfl fun l _ => by ring
  rw [Finset.sum_congr rfl fun i _ => this i, Finset.sum_sub_distrib, sub_div, Finset.sum_comm]
  congr 1
  rw [Finset.sum_div]
  refine Finset.sum_congr rfl fun l _ => ?_
  rw [← Finset.sum_mul]
  ring

theorem res_none (b : κ → ℝ) : (DR.mean fun i => v i * dn d i * (dy i - fitted x b i)) =
    smom dy v d x (none, none) - ∑ l, smom dy v d x (none, some (some l)) * b l := by
  unfold fitted smom DR.mean
  have : ∀ i, v i * dn d i * (dy i - ∑ l, x i l * b l) = ffun dy v d x (none, none) i - ∑ l, ffun dy v d x (none, some (some l)) i * b l := fun i => by
    simp only [ffun, gfun, hfun]
    rw [mul_sub, Finset.mul_sum]
    congr 1
    exact Finset.sum_congr rfl fun l _ => by ring
  rw [Finset.sum_congr rfl fun i _ => this i, Finset.sum_sub_distrib, sub_div, Finset.sum_comm]
  congr 1
  rw [Finset.sum_div]
  refine Finset.sum_congr rfl fun l _ => ?_
  rw [← Finset.sum_mul]
  ring

variable (hdet : (Matrix.of fun k l => smom dy v d x (some k, some (some l))).det ≠ 0)
include hdet

theorem normal_eq (k : κ) : ∑ l, smom dy v d x (some k, some (some l)) * bcoef (smom dy v d x) l = smom dy v d x (some k, none) := by
  have hi : (Matrix.of fun k l => smom dy v d x (some k, some (some l))) * (Matrix.of fun k l => smom dy v d x (some k, some (some l)))⁻¹ = 1 :=
    Matrix.mul_nonsing_inv _ (isUnit_iff_ne_zero.2 hdet)
  have := congrFun (congrArg (fun M : Matrix κ κ ℝ => M.mulVec fun l => smom dy v d x (some l, none)) hi) k
  rw [Matrix.one_mulVec, ← Matrix.mulVec_mulVec] at this
  rw [← this]
  rfl

/-- Mass of the comparison units: positive definiteness. -/
theorem mass_some (hv : ∀ i, 0 ≤ v i) (k0 : κ) : (DR.mean fun i => v i * (1 - dn d i)) ≠ 0 := by
  intro h
  refine hdet (Matrix.det_eq_zero_of_row_eq_zero k0 fun l => ?_)
  rw [Matrix.of_apply]
  unfold smom DR.mean
  unfold DR.mean at h
  rcases div_eq_zero_iff.1 h with h | h
  · rw [Finset.sum_eq_zero fun i _ => ?_, zero_div]
    have h0 := (Finset.sum_eq_zero_iff_of_nonneg fun i _ => mul_nonneg (hv i) (by have := dn_01 d i; linarith)).1 h i (Finset.mem_univ _)
    simp only [ffun, gfun, hfun]
    rw [h0, zero_mul, zero_mul]
  · rw [h, div_zero]

end

/-! ## The comparison as the model computes it -/

section
variable {ι : Type*} [Fintype ι] {sg : ι → ℕ} (hi level : ℝ) (c : ℕ) (hc : c ≠ 4) (W : ι → ℝ) (x : ι → κ → ℝ) (dy : ι → ℝ)
include hc

omit [DecidableEq κ] [Fintype κ] [Fintype ι] in
theorem comp_notB : paComp sg c = notB (pa4 sg c) := by
  funext i
  unfold paComp notB pa4
  rcases i.2 with h | h
  · simp [h, Ne.symm hc]
  · simp [h, hc]

omit [DecidableEq κ] [Fintype κ] [Fintype ι] in
theorem comp_ind (i : Sub sg c) : ind (K := ℝ) (paComp sg c) i = 1 - dn (pa4 sg c) i := by
  rw [comp_notB c hc]
  unfold ind notB dn
  cases pa4 sg c i <;> simp

theorem comp_out [Nonempty (Sub sg c)] : (nuis (regFits sg) .reg hi level c W x dy).out =
    fitted (onSub sg c x) (bcoef (smom (onSub sg c dy) (onSub sg c W) (pa4 sg c) (onSub sg c x))) := by
  unfold nuis
  simp only [reduceCtorEq, if_false]
  rw [comp_notB c hc, ← ols_raw]
  rfl

theorem comp_wt : Triple.wTreat sg c (nuis (regFits (κ := κ) sg) .reg hi level c W x dy) W = fun i => onSub sg c W i * dn (pa4 sg c) i := by
  funext i
  unfold Triple.wTreat nuis ind dn onSub
  simp

theorem comp_wc : Triple.wControl .reg sg c (nuis (regFits (κ := κ) sg) .reg hi level c W x dy) W = fun i => onSub sg c W i * (1 - dn (pa4 sg c) i) := by
  funext i
  unfold Triple.wControl
  rw [if_pos rfl, comp_ind c hc]
  unfold nuis ind onSub
  simp

theorem comp_array [Nonempty (Sub sg c)] (hW : ∀ i, 0 ≤ W i) (k0 : κ) (hk : ∀ i, x i k0 = 1)
    (hdet : (Matrix.of fun k l => smom (onSub sg c dy) (onSub sg c W) (pa4 sg c) (onSub sg c x) (some k, some (some l))).det ≠ 0)
    (h0 : smom (onSub sg c dy) (onSub sg c W) (pa4 sg c) (onSub sg c x) (none, some none) ≠ 0) :
    compDid (regFits (κ := κ) sg).inv .reg sg c (nuis (regFits sg) .reg hi level c W x dy) W x dy =
      .ok (tcoef (smom (onSub sg c dy) (onSub sg c W) (pa4 sg c) (onSub sg c x)), scatter sg c fun i =>
        ∑ j, acoef (smom (onSub sg c dy) (onSub sg c W) (pa4 sg c) (onSub sg c x)) j *
          ufun (onSub sg c dy) (onSub sg c W) (pa4 sg c) (onSub sg c x) (bcoef (smom (onSub sg c dy) (onSub sg c W) (pa4 sg c) (onSub sg c x)))
            (tcoef (smom (onSub sg c dy) (onSub sg c W) (pa4 sg c) (onSub sg c x))) j i) := by
  obtain ⟨F, hF⟩ : ∃ F, F = smom (onSub sg c dy) (onSub sg c W) (pa4 sg c) (onSub sg c x) := ⟨_, rfl⟩
  have hout := comp_out (sg := sg) hi level c hc W x dy
  have hwt := comp_wt (sg := sg) (κ := κ) hi level c hc W x dy
  have hwc := comp_wc (sg := sg) (κ := κ) hi level c hc W x dy
  have hmt : (DR.mean fun i => onSub sg c W i * dn (pa4 sg c) i) = F (none, some none) := by
    rw [hF, smom]
    congr 1
    funext i
    simp only [ffun, gfun, hfun, mul_one]
  have hmc := mass_some (onSub sg c dy) (onSub sg c W) (pa4 sg c) (onSub sg c x) hdet (fun i => hW _) k0
  have hresT := res_none (onSub sg c dy) (onSub sg c W) (pa4 sg c) (onSub sg c x) (bcoef F)
  have hresC : ∀ k, (DR.mean fun i => onSub sg c W i * (1 - dn (pa4 sg c) i) * onSub sg c x i k * (onSub sg c dy i - fitted (onSub sg c x) (bcoef F) i)) = 0 := by
    intro k
    rw [res_some, hF, normal_eq _ _ _ _ hdet, sub_self]
  have hC0 : (DR.mean fun i => onSub sg c W i * (1 - dn (pa4 sg c) i) * (onSub sg c dy i - fitted (onSub sg c x) (bcoef F) i)) = 0 := by
    have := hresC k0
    simpa [onSub, hk] using this
  have hT : (DR.mean fun i => onSub sg c W i * dn (pa4 sg c) i * (onSub sg c dy i - fitted (onSub sg c x) (bcoef F) i)) / (DR.mean fun i => onSub sg c W i * dn (pa4 sg c) i) =
      tcoef F := by
    rw [hresT, hmt, tcoef, hF]
  rw [← hF] at hout
  unfold compDid
  rw [if_neg (by rw [hwt, hmt, hF]; exact h0), if_neg (by rw [hwc]; exact hmc)]
  rw [← hF] at h0 ⊢
  congr 2
  · unfold compAtt
    rw [hwt, hwc, hout]
    have e1 : (DR.mean fun i : Sub sg c => onSub sg c W i * dn (pa4 sg c) i * (dy i.1 - fitted (onSub sg c x) (bcoef F) i)) / (DR.mean fun i => onSub sg c W i * dn (pa4 sg c) i) =
      tcoef F := hT
    have e2 : (DR.mean fun i : Sub sg c => onSub sg c W i * (1 - dn (pa4 sg c) i) * (dy i.1 - fitted (onSub sg c x) (bcoef F) i)) = 0 := hC0
    rw [e1, e2, zero_div, sub_zero]
  · congr 1
    funext i
    have hgram : compGram sg c W x = fun k l => F (some k, some (some l)) := by
      funext k l
      unfold compGram
      rw [hF, smom]
      congr 1
      funext i
      rw [comp_ind c hc]
      simp only [ffun, gfun, hfun, onSub]
    have hs : ∀ k l, minv (fun k l => F (some k, some (some l))) k l = minv (fun k l => F (some k, some (some l))) l k :=
      minv_symm _ fun k l => by
        rw [hF, smom, smom]
        congr 1
        funext i
        simp only [ffun, gfun, hfun]
        ring
    have hmx : ∀ k, (DR.mean fun i : Sub sg c => onSub sg c W i * (1 - dn (pa4 sg c) i) * x i.1 k) = F (some k0, some (some k)) := by
      intro k
      rw [hF, smom]
      congr 1
      funext i
      simp only [ffun, gfun, hfun, onSub, hk, mul_one]
    have hmxt : ∀ k, (DR.mean fun i : Sub sg c => onSub sg c W i * dn (pa4 sg c) i * x i.1 k) = F (none, some (some k)) := by
      intro k
      rw [hF, smom]
      congr 1
    have hinv : ∀ l, ∑ k, minv (fun k l => F (some k, some (some l))) l k * F (some k0, some (some k)) = if l = k0 then 1 else 0 := by
      intro l
      have := minv_mul F (by rw [hF]; exact hdet) l k0
      rw [← this]
      refine Finset.sum_congr rfl fun k _ => ?_
      congr 1
      rw [hF, smom, smom]
      congr 1
      funext i
      simp only [ffun, gfun, hfun]
      ring
    unfold compIF
    dsimp only
    rw [hwt, hwc, hout]
    simp only [reduceCtorEq, if_true, if_false, hgram, hmx, hmxt, comp_ind c hc]
    change _ - _ = _
    have e1 : (DR.mean fun i : Sub sg c => onSub sg c W i * dn (pa4 sg c) i * (dy i.1 - fitted (onSub sg c x) (bcoef F) i)) / (DR.mean fun i => onSub sg c W i * dn (pa4 sg c) i) =
      tcoef F := hT
    have e2 : (DR.mean fun i : Sub sg c => onSub sg c W i * (1 - dn (pa4 sg c) i) * (dy i.1 - fitted (onSub sg c x) (bcoef F) i)) = 0 := hC0
    rw [e1, e2, hmt, zero_div]
    have d1 : dot (fun k => ∑ l, W i.1 * (1 - dn (pa4 sg c) i) * (dy i.1 - fitted (onSub sg c x) (bcoef F) i) * x i.1 l *
        (regFits (κ := κ) sg).inv (fun k l => F (some k, some (some l))) l k) (fun k => F (some k0, some (some k))) =
        W i.1 * (1 - dn (pa4 sg c) i) * (dy i.1 - fitted (onSub sg c x) (bcoef F) i) := by
      unfold dot
      simp only [Finset.sum_mul]
      rw [Finset.sum_comm]
      have : ∀ l, ∑ k, W i.1 * (1 - dn (pa4 sg c) i) * (dy i.1 - fitted (onSub sg c x) (bcoef F) i) * x i.1 l *
          (regFits (κ := κ) sg).inv (fun k l => F (some k, some (some l))) l k * F (some k0, some (some k)) =
          W i.1 * (1 - dn (pa4 sg c) i) * (dy i.1 - fitted (onSub sg c x) (bcoef F) i) * x i.1 l * if l = k0 then 1 else 0 := fun l => by
        rw [← hinv l, Finset.mul_sum]
        exact Finset.sum_congr rfl fun k _ => by rw [mul_assoc]; rfl
      rw [Finset.sum_congr rfl fun l _ => this l]
      simp [hk]
    have d2 : dot (fun k => ∑ l, W i.1 * (1 - dn (pa4 sg c) i) * (dy i.1 - fitted (onSub sg c x) (bcoef F) i) * x i.1 l *
        (regFits (κ := κ) sg).inv (fun k l => F (some k, some (some l))) l k) (fun k => F (none, some (some k))) =
        ∑ l, (∑ k, F (none, some (some k)) * minv (fun k l => F (some k, some (some l))) k l) *
          ufun (onSub sg c dy) (onSub sg c W) (pa4 sg c) (onSub sg c x) (bcoef F) (tcoef F) (some l) i := by
      unfold dot
      simp only [ufun_some, Finset.sum_mul]
      rw [Finset.sum_comm]
      refine Finset.sum_congr rfl fun l _ => Finset.sum_congr rfl fun k _ => ?_
      rw [hs k l]
      unfold fitted onSub regFits
      ring
    rw [d1, d2, Fintype.sum_option]
    simp only [acoef]
    rw [ufun_none]
    have : ∀ T : κ → ℝ, ∑ l, -(∑ k, F (none, some (some k)) * minv (fun k l => F (some k, some (some l))) k l) / F (none, some none) * T l =
        -(∑ l, (∑ k, F (none, some (some k)) * minv (fun k l => F (some k, some (some l))) k l) * T l) / F (none, some none) := by
      intro T
      rw [← Finset.sum_neg_distrib, Finset.sum_div]
      exact Finset.sum_congr rfl fun l _ => by ring
    rw [this]
    unfold fitted onSub
    ring

end

/-! ## The comparison in terms of the full sample -/

/-- 1 for units of subgroup 4 and of subgroup `c`. -/
def inU (sg : 𝓧 → ℕ) (c : ℕ) (z : 𝓧) : ℝ := if sg z = 4 ∨ sg z = c then 1 else 0

/-- Subgroup 4. -/
def is4 (sg : 𝓧 → ℕ) (z : 𝓧) : Bool := decide (sg z = 4)

section
variable {ι : Type*} [Fintype ι] [Nonempty ι] (sg : ι → ℕ) (c : ℕ)

theorem sub_mean (g : ι → ℝ) : DR.mean (fun i : Sub sg c => g i) = (Fintype.card ι : ℝ) / (Fintype.card (Sub sg c) : ℝ) * DR.mean fun i => inU sg c i * g i := by
  unfold DR.mean
  rw [div_mul_div_comm, mul_comm (Fintype.card (Sub sg c) : ℝ), mul_div_mul_left _ _ (Nat.cast_ne_zero.2 Fintype.card_ne_zero)]
  congr 1
  have h1 : ∑ i, inU sg c i * g i = ∑ i with (sg i = 4 ∨ sg i = c), g i := by
    rw [Finset.sum_filter]
    refine Finset.sum_congr rfl fun i _ => ?_
    unfold inU
    split_ifs <;> simp
  rw [h1]
  exact (Finset.sum_subtype _ (fun i => by simp) g).symm

variable (dy w : ι → ℝ) (x : ι → κ → ℝ)

theorem sub_smom (p : Option κ × Option (Option κ)) : smom (onSub sg c dy) (onSub sg c (DR.normalize w)) (pa4 sg c) (onSub sg c x) p =
    (Fintype.card ι : ℝ) / (Fintype.card (Sub sg c) : ℝ) * (DR.mean w)⁻¹ * smom dy (fun i => w i * inU sg c i) (is4 sg) x p := by
  unfold smom
  have e1 : ffun (onSub sg c dy) (onSub sg c (DR.normalize w)) (pa4 sg c) (onSub sg c x) p = fun i : Sub sg c => ffun dy (DR.normalize w) (is4 sg) x p i := by
    funext i
    rcases p with ⟨_ | _, _ | _ | _⟩ <;> rfl
  have e2 : (fun i => inU sg c i * ffun dy (DR.normalize w) (is4 sg) x p i) = fun i => (DR.mean w)⁻¹ * ffun dy (fun i => w i * inU sg c i) (is4 sg) x p i := by
    funext i
    rcases p with ⟨_ | _, _ | _ | _⟩ <;> simp only [ffun, gfun, hfun, norm_eq] <;> ring
  rw [e1, sub_mean sg c (ffun dy (DR.normalize w) (is4 sg) x p), e2, mean_smul, mul_assoc]

theorem comp_sample (hi level : ℝ) (hc : c ≠ 4) (hw : ∀ i, 0 ≤ w i) (k0 : κ) (hk : ∀ i, x i k0 = 1)
    (hdet : (Matrix.of fun k l => smom dy (fun i => w i * inU sg c i) (is4 sg) x (some k, some (some l))).det ≠ 0)
    (h0 : smom dy (fun i => w i * inU sg c i) (is4 sg) x (none, some none) ≠ 0) :
    ∃ f, compDid (regFits (κ := κ) sg).inv .reg sg c (nuis (regFits sg) .reg hi level c (DR.normalize w) x dy) (DR.normalize w) x dy =
      .ok (tcoef (smom dy (fun i => w i * inU sg c i) (is4 sg) x), f) ∧ ∀ i, ratio sg c * f i =
        ∑ j, acoef (smom dy (fun i => w i * inU sg c i) (is4 sg) x) j * ufun dy (fun i => w i * inU sg c i) (is4 sg) x
          (bcoef (smom dy (fun i => w i * inU sg c i) (is4 sg) x)) (tcoef (smom dy (fun i => w i * inU sg c i) (is4 sg) x)) j i := by
  obtain ⟨F, hF⟩ : ∃ F, F = smom dy (fun i => w i * inU sg c i) (is4 sg) x := ⟨_, rfl⟩
  obtain ⟨q, hq⟩ : ∃ q, q = (Fintype.card ι : ℝ) / (Fintype.card (Sub sg c) : ℝ) * (DR.mean w)⁻¹ := ⟨_, rfl⟩
  have hS := funext (sub_smom sg c dy w x)
  rw [← hF, ← hq] at hS
  rw [← hF] at hdet h0 ⊢
  have h4 : ∃ i, sg i = 4 := by
    by_contra hcon
    push Not at hcon
    refine h0 ?_
    rw [hF, smom, DR.mean, Finset.sum_eq_zero fun i _ => ?_, zero_div]
    simp [ffun, gfun, dn, is4, hcon i]
  have hne : Nonempty (Sub sg c) := by
    obtain ⟨i, hi⟩ := h4
    exact ⟨⟨i, .inl hi⟩⟩
  have hm : 0 < DR.mean w := by
    refine lt_of_le_of_ne (div_nonneg (Finset.sum_nonneg fun i _ => hw i) (Nat.cast_nonneg _)) fun hz => h0 ?_
    unfold DR.mean at hz
    have hz' := (div_eq_zero_iff.1 hz.symm).resolve_right (Nat.cast_ne_zero.2 Fintype.card_ne_zero)
    rw [hF, smom, DR.mean, Finset.sum_eq_zero fun i _ => ?_, zero_div]
    simp [ffun, gfun, (Finset.sum_eq_zero_iff_of_nonneg fun i _ => hw i).1 hz' i (Finset.mem_univ _)]
  have hN : (Fintype.card ι : ℝ) / (Fintype.card (Sub sg c) : ℝ) ≠ 0 := div_ne_zero (Nat.cast_ne_zero.2 Fintype.card_ne_zero) (Nat.cast_ne_zero.2 Fintype.card_ne_zero)
  have hq0 : q ≠ 0 := by rw [hq]; exact mul_ne_zero hN (inv_ne_zero hm.ne')
  have hdet' : (Matrix.of fun k l => q * F (some k, some (some l))).det ≠ 0 := by
    have : (Matrix.of fun k l => q * F (some k, some (some l))) = q • Matrix.of fun k l => F (some k, some (some l)) := by
      ext k l
      simp
    rw [this, Matrix.det_smul]
    exact mul_ne_zero (pow_ne_zero _ hq0) hdet
  have key := comp_array (sg := sg) hi level c hc (DR.normalize w) x dy (fun i => div_nonneg (hw i) hm.le) k0 hk (by rw [hS]; exact hdet') (by rw [hS]; exact mul_ne_zero hq0 h0)
  rw [hS, tcoef_scale F q hq0, bcoef_scale F q hq0] at key
  refine ⟨_, key, fun i => ?_⟩
  unfold scatter ratio
  rw [if_pos Fintype.card_pos]
  split_ifs with h
  · rw [Finset.mul_sum]
    refine Finset.sum_congr rfl fun j _ => ?_
    rw [acoef_scale F q hq0]
    have hu : ufun (onSub sg c dy) (onSub sg c (DR.normalize w)) (pa4 sg c) (onSub sg c x) (bcoef F) (tcoef F) j ⟨i, h⟩ =
        (DR.mean w)⁻¹ * ufun dy (fun i => w i * inU sg c i) (is4 sg) x (bcoef F) (tcoef F) j i := by
      cases j with
      | none =>
        rw [ufun_none, ufun_none]
        have hd : dn (pa4 sg c) ⟨i, h⟩ = dn (is4 sg) i := rfl
        have hw1 : onSub sg c (DR.normalize w) ⟨i, h⟩ = (DR.mean w)⁻¹ * w i := norm_eq _ _
        have hi1 : inU sg c i = 1 := if_pos h
        rw [hd, hw1, hi1]
        simp only [onSub]
        ring
      | some l =>
        rw [ufun_some, ufun_some]
        have hd : dn (pa4 sg c) ⟨i, h⟩ = dn (is4 sg) i := rfl
        have hw1 : onSub sg c (DR.normalize w) ⟨i, h⟩ = (DR.mean w)⁻¹ * w i := norm_eq _ _
        have hi1 : inU sg c i = 1 := if_pos h
        rw [hd, hw1, hi1]
        simp only [onSub]
        ring
    rw [hu, hq]
    field_simp
  · rw [mul_zero]
    refine (Finset.sum_eq_zero fun j _ => ?_).symm
    cases j with
    | none => rw [ufun_none]; simp [inU, h]
    | some l => rw [ufun_some]; simp [inU, h]

end

/-! ## The population -/

section
variable {P : Measure Ω} [IsProbabilityMeasure P] {X : ℕ → Ω → 𝓧} (hX : Sampling P X) {sg : 𝓧 → ℕ} {y1 y0 u1 w : 𝓧 → ℝ} {x : 𝓧 → κ → ℝ} {β : ℕ → κ → ℝ}
  (hC : TripleOK P X sg y1 y0 u1 w x β)
include hX hC

theorem inU_meas (c : ℕ) : Measurable (inU sg c) :=
  Measurable.ite (hC.measSg (MeasurableSet.of_discrete (s := {k : ℕ | k = 4 ∨ k = c}))) measurable_const measurable_const

theorem inSg_meas (c : ℕ) : Measurable (inSg sg c) :=
  Measurable.ite (hC.measSg (MeasurableSet.of_discrete (s := {k : ℕ | k = c}))) measurable_const measurable_const

omit hX hC [MeasurableSpace 𝓧] in
theorem u_treated (c : ℕ) (z : 𝓧) : inU sg c z * dn (is4 sg) z = inSg sg 4 z := by
  unfold inU dn is4 inSg
  by_cases h : sg z = 4 <;> simp [h]

omit hX hC [MeasurableSpace 𝓧] in
theorem u_control {c : ℕ} (hc : c ≠ 4) (z : 𝓧) : inU sg c z * (1 - dn (is4 sg) z) = inSg sg c z := by
  unfold inU dn is4 inSg
  by_cases h : sg z = 4
  · simp [h, Ne.symm hc]
  · simp [h]

theorem d_moments (c : ℕ) : Moments P X (fun z => y1 z - y0 z) (fun z => w z * inU sg c z) (is4 sg) x := by
  have hi := inU_meas hX hC c
  have hb : ∀ z, |inU sg c z| ≤ 1 := fun z => by unfold inU; split_ifs <;> norm_num
  have hXm := hX.aemeas 0
  have tr : ∀ {f g : 𝓧 → ℝ}, SqInt P X f → (∀ z, f z = g z) → SqInt P X g := fun hf he => by rwa [← funext he]
  exact ⟨measurable_to_bool (hC.measSg (MeasurableSet.of_discrete (s := {k : ℕ | decide (k = 4) = true}))), hC.meas_x, hC.w1.mul_le hXm hi hb,
    tr (hC.wy.mul_le hXm hi hb) fun z => by ring,
    fun k => tr ((hC.wx k).mul_le hXm hi hb) fun z => by ring, fun k => tr ((hC.wxy k).mul_le hXm hi hb) fun z => by ring,
    fun k l => tr ((hC.wxx k l).mul_le hXm hi hb) fun z => by ring⟩

theorem inSg_sq (c : ℕ) : SqInt P X (inSg sg c) := by
  have h1 : SqInt P X fun _ : 𝓧 => (1 : ℝ) := ⟨measurable_const, memLp_const 1⟩
  have := h1.mul_le (hX.aemeas 0) (inSg_meas hX hC c) fun z => by unfold inSg; split_ifs <;> norm_num
  simpa using this

theorem inSg_pos {c : ℕ} (hc : c ∈ [1, 2, 3]) : 0 < pop P X (inSg sg c) := by
  have hnn : ∀ z, 0 ≤ inSg sg c z := fun z => by unfold inSg; split_ifs <;> norm_num
  refine lt_of_le_of_ne (integral_nonneg fun ω => hnn _) fun hz => ?_
  have h0 := (integral_eq_zero_iff_of_nonneg (fun ω => hnn _) ((inSg_sq hX hC c).2.integrable (by norm_num))).1 hz.symm
  obtain ⟨k, -⟩ := hC.intercept
  refine hC.rank c hc (Matrix.det_eq_zero_of_row_eq_zero k fun l => ?_)
  rw [Matrix.of_apply]
  refine integral_eq_zero_of_ae ?_
  filter_upwards [h0] with ω hω
  have : inSg sg c (X 0 ω) = 0 := hω
  simp [this]

/-- The change predicted for subgroup 4 by the regression in subgroup `c`. -/
noncomputable def pred (sg : 𝓧 → ℕ) (y1 y0 : 𝓧 → ℝ) (x : 𝓧 → κ → ℝ) (b : κ → ℝ) (z : 𝓧) : ℝ := if is4 sg z = true then ∑ l, x z l * b l else y1 z - y0 z

theorem d_trends {c : ℕ} (hc : c ∈ [1, 2, 3]) : Trends P X (fun z => y1 z - y0 z) (pred sg y1 y0 x (β c)) (fun z => w z * inU sg c z) (is4 sg) x (β c) := by
  have hc4 : c ≠ 4 := by rintro rfl; simp at hc
  have e1 : ∀ z, w z * inU sg c z * dn (is4 sg) z = w z * inSg sg 4 z := fun z => by rw [mul_assoc, u_treated]
  have e2 : ∀ z, w z * inU sg c z * (1 - dn (is4 sg) z) = w z * inSg sg c z := fun z => by rw [mul_assoc, u_control hc4]
  have hp4 : ∀ z, w z * inSg sg 4 z * pred sg y1 y0 x (β c) z = w z * inSg sg 4 z * ∑ l, x z l * β c l := fun z => by
    unfold inSg pred is4
    by_cases h : sg z = 4 <;> simp [h]
  refine ⟨fun z => mul_nonneg (hC.nonneg z) (by unfold inU; split_ifs <;> norm_num), by simpa only [e1] using hC.treated, ?_, by simpa only [e2] using hC.rank c hc,
    fun z hz hd => ?_, fun k => ?_, ?_, ?_⟩
  · refine (inSg_pos hX hC hc).trans_le ?_
    unfold pop
    refine integral_mono ((inSg_sq hX hC c).2.integrable (by norm_num)) ((controls_sq hX (d_moments hX hC c).meas_d).2.integrable (by norm_num)) fun ω => ?_
    dsimp only
    rw [← u_control hc4]
    have := dn_01 (is4 sg) (X 0 ω)
    refine mul_le_of_le_one_left (by linarith) ?_
    unfold inU
    split_ifs <;> norm_num
  · unfold pred
    rw [if_neg (by rw [hd]; simp)]
  · have := hC.regression c hc k
    simp only [e2]
    rw [← this]
    congr 1
    funext z
    unfold inSg pred is4
    by_cases h : sg z = 4
    · simp [h, Ne.symm hc4]
    · simp [h]
  · simp only [e1, mul_sub, hp4, sub_self]
    exact integral_zero _ _
  · simp only [e1, hp4]
    have : (fun ω => w (X 0 ω) * inSg sg 4 (X 0 ω) * ∑ l, x (X 0 ω) l * β c l) = fun ω => ∑ l, β c l * (w (X 0 ω) * x (X 0 ω) l * inSg sg 4 (X 0 ω)) := by
      funext ω
      rw [Finset.mul_sum]
      exact Finset.sum_congr rfl fun l _ => by ring
    rw [this]
    exact integrable_finsetSum _ fun l _ => (((hC.wx l).mul_le (hX.aemeas 0) (inSg_meas hX hC 4) fun z => by unfold inSg; split_ifs <;> norm_num).2.integrable (by norm_num)).const_mul _

theorem d_target {c : ℕ} : meanATT P X (fun z => y1 z - y0 z) (pred sg y1 y0 x (β c)) (fun z => w z * inU sg c z) (is4 sg) = compMean P X sg y1 y0 w x (β c) := by
  have e1 : ∀ z, w z * inU sg c z * dn (is4 sg) z = w z * inSg sg 4 z := fun z => by rw [mul_assoc, u_treated]
  unfold meanATT compMean
  simp only [e1]
  congr 2
  funext z
  unfold inSg pred is4
  by_cases h : sg z = 4 <;> simp [h]

/-- Moments of the comparison with subgroup `c` in the sample. -/
noncomputable def dmom (sg : 𝓧 → ℕ) (y1 y0 w : 𝓧 → ℝ) (x : 𝓧 → κ → ℝ) (X : ℕ → Ω → 𝓧) (c n : ℕ) (ω : Ω) (p : Option κ × Option (Option κ)) : ℝ :=
  avg X (ffun (fun z => y1 z - y0 z) (fun z => w z * inU sg c z) (is4 sg) x p) n ω

noncomputable def dinf (sg : 𝓧 → ℕ) (y1 y0 w : 𝓧 → ℝ) (x : 𝓧 → κ → ℝ) (X : ℕ → Ω → 𝓧) (c n : ℕ) (ω : Ω) (i : Fin n) : ℝ :=
  ∑ j, acoef (dmom sg y1 y0 w x X c n ω) j * ufun (fun z => y1 z - y0 z) (fun z => w z * inU sg c z) (is4 sg) x
    (bcoef (dmom sg y1 y0 w x X c n ω)) (tcoef (dmom sg y1 y0 w x X c n ω)) j (X i ω)

def dgood (sg : 𝓧 → ℕ) (y1 y0 w : 𝓧 → ℝ) (x : 𝓧 → κ → ℝ) (X : ℕ → Ω → 𝓧) (c n : ℕ) : Set Ω :=
  good (fun z => y1 z - y0 z) (fun z => w z * inU sg c z) (is4 sg) x (inSg sg c) X n

theorem d_regular {c : ℕ} (hc : c ∈ [1, 2, 3]) : Regular P X (fun n ω => tcoef (dmom sg y1 y0 w x X c n ω)) (dinf sg y1 y0 w x X c) (compMean P X sg y1 y0 w x (β c))
    (dgood sg y1 y0 w x X c) (compInfluence P X sg y1 y0 w x c (β c)) := by
  have hc4 : c ≠ 4 := by rintro rfl; simp at hc
  have h := plugin hX (d_moments hX hC c) (d_trends hX hC hc) (inSg sg c) (inSg_sq hX hC c) (inSg_pos hX hC hc)
    (fun n ω => tcoef (dmom sg y1 y0 w x X c n ω)) (dinf sg y1 y0 w x X c) (fun n ω _ => rfl) fun n ω _ i => rfl
  rw [d_target hX hC] at h
  refine h.regular hX (fun z => ?_) fun n ω hω => ?_
  · have h := influence_eq (y1 := y1) (y0 := y0) hX (d_moments hX hC c) (d_trends hX hC hc) z
    rw [d_target hX hC] at h
    rw [h]
    have e1 : ∀ z, w z * inU sg c z * dn (is4 sg) z = w z * inSg sg 4 z := fun z => by rw [mul_assoc, u_treated]
    have e2 : ∀ z, w z * inU sg c z * (1 - dn (is4 sg) z) = w z * inSg sg c z := fun z => by rw [mul_assoc, u_control hc4]
    unfold influence compInfluence
    simp only [e1, e2]
  · have h := tcoef_sub (dmom sg y1 y0 w x X c n ω) hω.2.2.1 hω.2.1 (bcoef (dmom sg y1 y0 w x X c n ω)) (tcoef (dmom sg y1 y0 w x X c n ω))
    rw [sub_self] at h
    have h2 := mean_eq X (fun z => ∑ j, acoef (dmom sg y1 y0 w x X c n ω) j * ufun (fun z => y1 z - y0 z) (fun z => w z * inU sg c z) (is4 sg) x
      (bcoef (dmom sg y1 y0 w x X c n ω)) (tcoef (dmom sg y1 y0 w x X c n ω)) j z) n ω
    unfold dinf
    rw [h2, avg_sum, h]
    refine Finset.sum_congr rfl fun j _ => ?_
    congr 1
    exact avg_sum _ _ n ω

/-- Which subgroup, and with which sign. -/
def grp : Fin 3 → ℕ := ![3, 2, 1]
def sgn : Fin 3 → ℝ := ![1, 1, -1]

omit hX hC [MeasurableSpace 𝓧] [MeasurableSpace Ω] [Fintype κ] [DecidableEq κ] in
theorem sgn0 : sgn 0 = 1 := rfl
omit hX hC [MeasurableSpace 𝓧] [MeasurableSpace Ω] [Fintype κ] [DecidableEq κ] in
theorem sgn1 : sgn 1 = 1 := rfl
omit hX hC [MeasurableSpace 𝓧] [MeasurableSpace Ω] [Fintype κ] [DecidableEq κ] in
theorem sgn2 : sgn 2 = -1 := rfl
omit hX hC [MeasurableSpace 𝓧] [MeasurableSpace Ω] [Fintype κ] [DecidableEq κ] in
theorem grp0 : grp 0 = 3 := rfl
omit hX hC [MeasurableSpace 𝓧] [MeasurableSpace Ω] [Fintype κ] [DecidableEq κ] in
theorem grp1 : grp 1 = 2 := rfl
omit hX hC [MeasurableSpace 𝓧] [MeasurableSpace Ω] [Fintype κ] [DecidableEq κ] in
theorem grp2 : grp 2 = 1 := rfl

omit hX hC [MeasurableSpace 𝓧] [MeasurableSpace Ω] [Fintype κ] [DecidableEq κ] in
theorem grp_mem (k : Fin 3) : grp k ∈ [1, 2, 3] := by revert k; decide

theorem ddd_regular : Regular P X (fun n ω => ∑ k, sgn k * tcoef (dmom sg y1 y0 w x X (grp k) n ω)) (fun n ω i => ∑ k, sgn k * dinf sg y1 y0 w x X (grp k) n ω i)
    (tripleATT P X sg y1 u1 w) (fun n => ⋂ k, dgood sg y1 y0 w x X (grp k) n) (tripleInfluence P X sg y1 y0 w x β) := by
  have h := Regular.fixed hX (fun k => d_regular hX hC (grp_mem k)) sgn
  have e1 : ∑ k, sgn k * compMean P X sg y1 y0 w x (β (grp k)) = tripleATT P X sg y1 u1 w := by
    have i4 : ∀ f : 𝓧 → ℝ, SqInt P X (fun z => w z * f z) → Integrable (fun ω => w (X 0 ω) * inSg sg 4 (X 0 ω) * f (X 0 ω)) P := fun f hf => by
      have := ((hf.mul_le (hX.aemeas 0) (inSg_meas hX hC 4) fun z => by unfold inSg; split_ifs <;> norm_num).2.integrable (by norm_num : (1 : ENNReal) ≤ 2))
      refine this.congr (.of_forall fun ω => ?_)
      dsimp only
      ring
    have ib : ∀ c, Integrable (fun ω => w (X 0 ω) * inSg sg 4 (X 0 ω) * ∑ l, x (X 0 ω) l * β c l) P := fun c => by
      have : (fun ω => w (X 0 ω) * inSg sg 4 (X 0 ω) * ∑ l, x (X 0 ω) l * β c l) = fun ω => ∑ l, β c l * (w (X 0 ω) * inSg sg 4 (X 0 ω) * x (X 0 ω) l) := by
        funext ω
        rw [Finset.mul_sum]
        exact Finset.sum_congr rfl fun l _ => by ring
      rw [this]
      exact integrable_finsetSum _ fun l _ => (i4 (fun z => x z l) (hC.wx l)).const_mul _
    have iy := i4 (fun z => y1 z - y0 z) hC.wy
    have hcm : ∀ c, (pop P X fun z => w z * inSg sg 4 z * (y1 z - y0 z - ∑ l, x z l * β c l)) =
        (pop P X fun z => w z * inSg sg 4 z * (y1 z - y0 z)) - pop P X fun z => w z * inSg sg 4 z * ∑ l, x z l * β c l := fun c => by
      unfold pop
      rw [← integral_sub iy (ib c)]
      simp only [mul_sub]
    have htr : (pop P X fun z => w z * inSg sg 4 z * (u1 z - y0 z)) = (pop P X fun z => w z * inSg sg 4 z * ∑ l, x z l * β 3 l) +
        (pop P X fun z => w z * inSg sg 4 z * ∑ l, x z l * β 2 l) - pop P X fun z => w z * inSg sg 4 z * ∑ l, x z l * β 1 l := by
      have h0 := hC.triple
      have : (pop P X fun z => w z * inSg sg 4 z * (u1 z - y0 z - (∑ l, x z l * β 3 l + ∑ l, x z l * β 2 l - ∑ l, x z l * β 1 l))) =
          (pop P X fun z => w z * inSg sg 4 z * (u1 z - y0 z)) - ((pop P X fun z => w z * inSg sg 4 z * ∑ l, x z l * β 3 l) +
        (pop P X fun z => w z * inSg sg 4 z * ∑ l, x z l * β 2 l) - pop P X fun z => w z * inSg sg 4 z * ∑ l, x z l * β 1 l) := by
        unfold pop
        have j1 := integral_add (ib 3) (ib 2)
        have j2 := integral_sub ((ib 3).add (ib 2)) (ib 1)
        have j3 := integral_sub hC.int0 (((ib 3).add (ib 2)).sub (ib 1))
        simp only [Pi.add_apply, Pi.sub_apply] at j1 j2 j3
        rw [← j1, ← j2, ← j3]
        congr 1
        funext ω
        ring
      rw [this] at h0
      linarith
    have hatt : (pop P X fun z => w z * inSg sg 4 z * (y1 z - u1 z)) = (pop P X fun z => w z * inSg sg 4 z * (y1 z - y0 z)) - pop P X fun z => w z * inSg sg 4 z * (u1 z - y0 z) := by
      unfold pop
      rw [← integral_sub iy hC.int0]
      congr 1
      funext ω
      ring
    rw [Fin.sum_univ_three]
    simp only [sgn0, sgn1, sgn2, grp0, grp1, grp2]
    unfold compMean tripleATT
    rw [hatt, htr, hcm, hcm, hcm]
    ring
  have e2 : (fun z => ∑ k, sgn k * compInfluence P X sg y1 y0 w x (grp k) (β (grp k)) z) = tripleInfluence P X sg y1 y0 w x β := by
    funext z
    rw [Fin.sum_univ_three]
    simp only [sgn0, sgn1, sgn2, grp0, grp1, grp2]
    unfold tripleInfluence
    ring
  rw [e1, e2] at h
  exact h

theorem ddd_eq (hi level : ℝ) (n : ℕ) (ω : Ω) (hω : ω ∈ ⋂ k, dgood sg y1 y0 w x X (grp k) n) :
    dddReport hi level sg y1 y0 w x X n ω = some (∑ k, sgn k * tcoef (dmom sg y1 y0 w x X (grp k) n ω), fun i => ∑ k, sgn k * dinf sg y1 y0 w x X (grp k) n ω i) := by
  have hg := fun k => Set.mem_iInter.1 hω k
  obtain ⟨k0, hk0⟩ := hC.intercept
  have : Nonempty (Fin n) := ⟨⟨0, by have := (hg 0).1; omega⟩⟩
  have key : ∀ k : Fin 3, ∃ f, compDid (regFits (κ := κ) fun i : Fin n => sg (X i ω)).inv .reg (fun i : Fin n => sg (X i ω)) (grp k)
      (nuis (regFits fun i : Fin n => sg (X i ω)) .reg hi level (grp k) (DR.normalize fun i => w (X i ω)) (fun i => x (X i ω)) fun i => y1 (X i ω) - y0 (X i ω))
      (DR.normalize fun i => w (X i ω)) (fun i => x (X i ω)) (fun i => y1 (X i ω) - y0 (X i ω)) =
      .ok (tcoef (dmom sg y1 y0 w x X (grp k) n ω), f) ∧ ∀ i, ratio (fun i : Fin n => sg (X i ω)) (grp k) * f i = dinf sg y1 y0 w x X (grp k) n ω i := by
    intro k
    obtain ⟨hn, h0, hdet, -⟩ := hg k
    have hF := avg_smom (fun z => y1 z - y0 z) (fun z => w z * inU sg (grp k) z) (is4 sg) x X n ω
    have hF' : dmom sg y1 y0 w x X (grp k) n ω = smom (fun i : Fin n => y1 (X i ω) - y0 (X i ω)) (fun i => w (X i ω) * inU (fun i : Fin n => sg (X i ω)) (grp k) i)
      (is4 fun i : Fin n => sg (X i ω)) (fun i => x (X i ω)) := hF
    obtain ⟨f, h1, h2⟩ := comp_sample (fun i : Fin n => sg (X i ω)) (grp k) (fun i => y1 (X i ω) - y0 (X i ω)) (fun i => w (X i ω)) (fun i => x (X i ω)) hi level
      (by rintro h; have := grp_mem k; rw [h] at this; simp at this) (fun i => hC.nonneg _) k0 (fun i => hk0 _) (by rw [← hF']; exact hdet) (by rw [← hF']; exact h0)
    rw [← hF'] at h1 h2
    refine ⟨f, h1, fun i => ?_⟩
    rw [h2 i]
    unfold dinf
    refine Finset.sum_congr rfl fun j _ => ?_
    congr 1
    exact ufun_comp (fun z => y1 z - y0 z) (fun z => w z * inU sg (grp k) z) (is4 sg) x (fun i : Fin n => X i ω) _ _ j i
  have h4 : ∃ i : Fin n, sg (X i ω) = 4 := by
    by_contra hcon
    push Not at hcon
    refine (hg 0).2.1 ?_
    rw [← mean_eq, DR.mean, Finset.sum_eq_zero fun i _ => ?_, zero_div]
    simp [ffun, gfun, dn, is4, hcon i]
  obtain ⟨f3, a3, b3⟩ := key 0
  obtain ⟨f2, a2, b2⟩ := key 1
  obtain ⟨f1, a1, b1⟩ := key 2
  unfold dddReport dddPanel
  rw [if_neg (by push Not; exact fun i => hC.nonneg _), if_neg (by push Not; exact fun i => hC.subgroup _), if_neg (not_not.2 h4)]
  unfold allDid
  have g0 : grp 0 = 3 := rfl
  have g1 : grp 1 = 2 := rfl
  have g2 : grp 2 = 1 := rfl
  rw [g0] at a3 b3
  rw [g1] at a2 b2
  rw [g2] at a1 b1
  rw [a3, a2, a1]
  simp only [combine3, Bind.bind, Except.bind, pure, Except.pure, b3, b2, b1, Option.some.injEq, Prod.mk.injEq]
  refine ⟨?_, funext fun i => ?_⟩
  · rw [Fin.sum_univ_three]
    simp only [sgn0, sgn1, sgn2, grp0, grp1, grp2]
    ring
  · rw [Fin.sum_univ_three]
    simp only [sgn0, sgn1, sgn2, grp0, grp1, grp2]
    ring

/-! ## C262 -/

omit hC in
theorem ratio_one : Tendsto (fun n : ℕ => (n : ℝ) / (n - 1)) atTop (𝓝 1) := by
  have h : Tendsto (fun n : ℕ => 1 + ((n : ℝ) - 1)⁻¹) atTop (𝓝 (1 + 0)) :=
    tendsto_const_nhds.add (tendsto_inv_atTop_zero.comp (tendsto_atTop_add_const_right _ _ tendsto_natCast_atTop_atTop))
  rw [add_zero] at h
  refine h.congr' ?_
  filter_upwards [eventually_ge_atTop 2] with n hn
  have : (2 : ℝ) ≤ n := by exact_mod_cast hn
  field_simp [show (n : ℝ) - 1 ≠ 0 by linarith]
  ring

/-- **C262 (consistency).**  With probability one `ddd_panel(est_method="reg")` reports, from some sample size on, an estimate that tends to the mean effect on subgroup 4,
and `√n` times the standard error tends to the standard deviation of the influence function. -/
theorem C262_limit (hi level : ℝ) : ∀ᵐ ω ∂P, ∃ att se : ℕ → ℝ, (∀ᶠ n in atTop, ∃ psi, dddReport hi level sg y1 y0 w x X n ω = some (att n, psi) ∧ dddSe psi = se n) ∧
    Tendsto att atTop (𝓝 (tripleATT P X sg y1 u1 w)) ∧
    Tendsto (fun n : ℕ => Real.sqrt n * se n) atTop (𝓝 (Real.sqrt (pop P X fun z => tripleInfluence P X sg y1 y0 w x β z ^ 2))) := by
  obtain ⟨⟨m, l, u, a, a', f, c, c', hp, hψ⟩, -⟩ := ddd_regular hX hC
  filter_upwards [hp.consistent hX, hp.moments hX, hp.Gev] with ω h1 h2 h3
  simp only [hψ] at h2
  refine ⟨_, fun n => dddSe fun i => ∑ k, sgn k * dinf sg y1 y0 w x X (grp k) n ω i, ?_, h1, ?_⟩
  · filter_upwards [h3] with n hn
    exact ⟨_, ddd_eq hX hC hi level n ω hn, rfl⟩
  · have := (h2.mul (ratio_one hX)).sqrt
    rw [mul_one] at this
    refine this.congr' ?_
    filter_upwards [eventually_ge_atTop 2] with n hn
    have : Real.sqrt n ≠ 0 := (Real.sqrt_pos.2 (by exact_mod_cast (by omega : 0 < n))).ne'
    rw [dddSe_eq hn, mul_div_cancel₀ _ this]

/-- **C262 (coverage).**  The probability that the reported interval contains the effect tends to `1 - alpha`. -/
theorem C262_coverage (hi level alpha : ℝ) (ha0 : 0 < alpha) (ha1 : alpha < 1) (hv : 0 < pop P X fun z => tripleInfluence P X sg y1 y0 w x β z ^ 2) :
    Tendsto (fun n => P.real {ω | ∃ att psi, dddReport hi level sg y1 y0 w x X n ω = some (att, psi) ∧
      (Report.dddInterval alpha att (dddSe psi)).1 ≤ tripleATT P X sg y1 u1 w ∧ tripleATT P X sg y1 u1 w ≤ (Report.dddInterval alpha att (dddSe psi)).2}) atTop
      (𝓝 (1 - alpha)) := by
  obtain ⟨⟨m, l, u, a, a', f, c, c', hp, hψ⟩, -⟩ := ddd_regular hX hC
  have hz : Phi (Report.zcrit alpha) = 1 - alpha / 2 := phi_ppf _ (by linarith) (by linarith)
  have e : 1 - alpha = Phi (Report.zcrit alpha) - Phi (-Report.zcrit alpha) := by rw [phi_neg, hz]; ring
  rw [e]
  refine hp.coverage hX _ (ppf_half alpha ha0 ha1).le (by simpa only [hψ] using hv) _ (ratio_one hX) _ fun n ω hω => ?_
  rw [Set.mem_ofPred_eq, ddd_eq hX hC hi level n ω hω, ← dddSe_eq (Set.mem_iInter.1 hω 0).1]
  simp only [Option.some.injEq, Prod.mk.injEq]
  constructor
  · rintro ⟨_, _, ⟨rfl, rfl⟩, h⟩
    exact h
  · intro h
    exact ⟨_, _, ⟨rfl, rfl⟩, h⟩

end

/-! ## Non-vacuity: four subgroups, a binary covariate and a noise, each subgroup with its own trend -/

abbrev Quads := Fin 4 × Bool × Bool

def qdSg (z : Quads) : ℕ := z.1 + 1
def qdNo : Fin 4 → ℝ := ![1, 2, 3, 4]
def qdY0 (z : Quads) : ℝ := 5 * num z.2.1
def qdU1 (z : Quads) : ℝ := qdY0 z + qdNo z.1 + (qdNo z.1 - 1) * num z.2.1 + (2 * num z.2.2 - 1)
def qdOn : Fin 4 → ℝ := ![0, 0, 0, 1]
def qdY1 (z : Quads) : ℝ := qdU1 z + qdOn z.1 * (3 + 2 * num z.2.1)
def qdW (z : Quads) : ℝ := 1 + num z.2.1
def qdX (z : Quads) : Fin 2 → ℝ := ![1, num z.2.1]
def qdB (c : ℕ) : Fin 2 → ℝ := ![c, (c : ℝ) - 1]

theorem qd_no0 : qdNo 0 = 1 := rfl
theorem qd_on0 : qdOn 0 = 0 := rfl
theorem qd_no1 : qdNo 1 = 2 := rfl
theorem qd_on1 : qdOn 1 = 0 := rfl
theorem qd_no2 : qdNo 2 = 3 := rfl
theorem qd_on2 : qdOn 2 = 0 := rfl
theorem qd_no3 : qdNo 3 = 4 := rfl
theorem qd_on3 : qdOn 3 = 1 := rfl

theorem qd_pop (f : Quads → ℝ) : pop (draws Quads) draw f =
    ((f (0, true, true) + f (0, true, false) + f (0, false, true) + f (0, false, false)) +
    (f (1, true, true) + f (1, true, false) + f (1, false, true) + f (1, false, false)) +
    (f (2, true, true) + f (2, true, false) + f (2, false, true) + f (2, false, false)) +
    (f (3, true, true) + f (3, true, false) + f (3, false, true) + f (3, false, false))) / 16 := by
  rw [draws_pop]
  simp only [Fintype.sum_prod_type, Fintype.sum_bool, Fintype.card_prod, Fintype.card_bool, Fin.sum_univ_four, Fintype.card_fin]
  norm_num
  ring

theorem qd_in (c : ℕ) (p q : Bool) : inSg qdSg c (0, p, q) = (if c = 1 then 1 else 0) ∧ inSg qdSg c (1, p, q) = (if c = 2 then 1 else 0) ∧
    inSg qdSg c (2, p, q) = (if c = 3 then 1 else 0) ∧ inSg qdSg c (3, p, q) = if c = 4 then 1 else 0 := by
  simp only [inSg, qdSg, eq_comm (b := c)]
  exact ⟨rfl, rfl, rfl, rfl⟩

theorem qd_0 (c : ℕ) (p q : Bool) : inSg qdSg c (0, p, q) = if c = 1 then 1 else 0 := (qd_in c p q).1
theorem qd_1 (c : ℕ) (p q : Bool) : inSg qdSg c (1, p, q) = if c = 2 then 1 else 0 := (qd_in c p q).2.1
theorem qd_2 (c : ℕ) (p q : Bool) : inSg qdSg c (2, p, q) = if c = 3 then 1 else 0 := (qd_in c p q).2.2.1
theorem qd_3 (c : ℕ) (p q : Bool) : inSg qdSg c (3, p, q) = if c = 4 then 1 else 0 := (qd_in c p q).2.2.2

theorem qd_ok : TripleOK (draws Quads) draw qdSg qdY1 qdY0 qdU1 qdW qdX qdB := by
  refine ⟨fun z => ?_, fun z => ?_, ⟨0, fun z => rfl⟩, measurable_of_finite _, fun _ => measurable_of_finite _, draws_sq _, draws_sq _,
    fun _ => draws_sq _, fun _ => draws_sq _, fun _ _ => draws_sq _, ?_, fun c hc => ?_, fun c hc k => ?_, ?_, draws_int fun z => qdW z * inSg qdSg 4 z * (qdU1 z - qdY0 z)⟩
  · obtain ⟨k, p, q⟩ := z
    fin_cases k <;> simp [qdSg]
  · unfold qdW num
    split_ifs <;> norm_num
  · rw [qd_pop]
    simp only [qd_0, qd_1, qd_2, qd_3]
    norm_num [qdW, num]
  · simp only [List.mem_cons, List.not_mem_nil, or_false] at hc
    simp only [qd_pop]
    rw [Matrix.det_fin_two]
    rcases hc with rfl | rfl | rfl <;> simp only [qd_0, qd_1, qd_2, qd_3] <;> norm_num [qdW, num, qdX]
  · simp only [List.mem_cons, List.not_mem_nil, or_false] at hc
    rw [qd_pop]
    rcases hc with rfl | rfl | rfl <;> simp only [qd_0, qd_1, qd_2, qd_3] <;> fin_cases k <;>
      norm_num [qdW, num, qdX, qdY1, qdU1, qdY0, qd_no0, qd_no1, qd_no2, qd_no3, qd_on0, qd_on1, qd_on2, qd_on3, qdB, Fin.sum_univ_two]
  · rw [qd_pop]
    simp only [qd_0, qd_1, qd_2, qd_3]
    norm_num [qdW, num, qdX, qdY1, qdU1, qdY0, qd_no0, qd_no1, qd_no2, qd_no3, qd_on0, qd_on1, qd_on2, qd_on3, qdB, Fin.sum_univ_two]

theorem qd_att : tripleATT (draws Quads) draw qdSg qdY1 qdU1 qdW = 13 / 3 := by
  unfold tripleATT
  rw [qd_pop, qd_pop]
  simp only [qd_0, qd_1, qd_2, qd_3]
  norm_num [qdW, num, qdY1, qd_no0, qd_no1, qd_no2, qd_no3, qd_on0, qd_on1, qd_on2, qd_on3]

theorem qd_inf : 0 < tripleInfluence (draws Quads) draw qdSg qdY1 qdY0 qdW qdX qdB (0, true, true) := by
  unfold tripleInfluence compInfluence
  simp only [qd_pop, qd_0, qd_1, qd_2, qd_3, Fin.sum_univ_two]
  norm_num [qdW, num, qdX, qdY1, qdU1, qdY0, qd_no0, qd_no1, qd_no2, qd_no3, qd_on0, qd_on1, qd_on2, qd_on3, qdB, minv, Matrix.inv_def, Matrix.adjugate_fin_two, Matrix.det_fin_two]

theorem qd_var : 0 < pop (draws Quads) draw fun z => tripleInfluence (draws Quads) draw qdSg qdY1 qdY0 qdW qdX qdB z ^ 2 := by
  rw [qd_pop]
  have := pow_pos qd_inf 2
  positivity

/-- No single comparison has parallel trends: the comparison with subgroup 1 alone would estimate something else. -/
example : compMean (draws Quads) draw qdSg qdY1 qdY0 qdW qdX (qdB 1) ≠ 13 / 3 := by
  unfold compMean
  rw [qd_pop, qd_pop]
  simp only [qd_0, qd_1, qd_2, qd_3]
  norm_num [qdW, num, qdX, qdY1, qdU1, qdY0, qd_no0, qd_no1, qd_no2, qd_no3, qd_on0, qd_on1, qd_on2, qd_on3, qdB, Fin.sum_univ_two]

example (hi level : ℝ) : ∀ᵐ ω ∂draws Quads, ∃ att se : ℕ → ℝ, (∀ᶠ n in atTop, ∃ psi, dddReport hi level qdSg qdY1 qdY0 qdW qdX draw n ω = some (att n, psi) ∧ dddSe psi = se n) ∧
    Tendsto att atTop (𝓝 (13 / 3)) := by
  have h := C262_limit draws_sampling qd_ok hi level
  rw [qd_att] at h
  filter_upwards [h] with ω ⟨att, se, h1, h2, _⟩
  exact ⟨att, se, h1, h2⟩

example (hi level : ℝ) : Tendsto (fun n => (draws Quads).real {ω | ∃ att psi, dddReport hi level qdSg qdY1 qdY0 qdW qdX draw n ω = some (att, psi) ∧
    (Report.dddInterval 0.05 att (dddSe psi)).1 ≤ 13 / 3 ∧ 13 / 3 ≤ (Report.dddInterval 0.05 att (dddSe psi)).2}) atTop (𝓝 (1 - 0.05)) := by
  have h := C262_coverage draws_sampling qd_ok hi level 0.05 (by norm_num) (by norm_num) qd_var
  rwa [qd_att] at h

end Verif.Asym
