import Verif.Asym.Draws
import Verif.Report.Normal
import Verif.Report.PValue

set_option linter.unusedSectionVars false
set_option linter.unusedSimpArgs false

/-!
# C258: `reg_did_panel` in large samples: consistency and coverage of its confidence interval
-/

namespace Verif.Asym

open MeasureTheory ProbabilityTheory Filter Topology Verif.Honest Verif.DR

variable {Ω 𝓧 κ : Type*} [MeasurableSpace Ω] [MeasurableSpace 𝓧] [Fintype κ] [DecidableEq κ]

/-! ## Model -/

/-- `np.linalg.inv` of `(weights_ols * x).T @ x / n`, `reg_did_panel.py:342-350`. -/
noncomputable def gramInv {ι : Type*} [Fintype ι] (v : ι → ℝ) (x : ι → κ → ℝ) : κ → κ → ℝ := minv fun k l => DR.mean fun i => v i * x i k * x i l

/-- The influence function of `reg_did_panel` with its own fit and its own matrix, `reg_did_panel.py:184-196, 339-393`. -/
noncomputable def regInf {ι : Type*} [Fintype ι] (y1 y0 : ι → ℝ) (d : ι → Bool) (x : ι → κ → ℝ) (w0 : ι → ℝ) : ι → ℝ :=
  let w := DR.normalize w0
  let dy := fun i => y1 i - y0 i
  regPanelIF d (fitted x (Ident.gramOLS w (notB d) x dy)) dy w x (gramInv (fun i => w i * (1 - ind d i)) x)

/-- What a user gets from `reg_did_panel` on the first `n` units: the estimate, the analytic standard error and the interval, `reg_did_panel.py:198-207`.
`none` stands for an error or NaN. -/
noncomputable def regReport (y1 y0 w : 𝓧 → ℝ) (d : 𝓧 → Bool) (x : 𝓧 → κ → ℝ) (X : ℕ → Ω → 𝓧) (n : ℕ) (ω : Ω) : Option (ℝ × ℝ × (ℝ × ℝ)) :=
  match regDidPanel Ident.gramOLS (fun i : Fin n => y1 (X i ω)) (fun i => y0 (X i ω)) (fun i => d (X i ω)) (fun i => x (X i ω)) (fun i => w (X i ω)) with
  | .ok (some att) =>
    let se := analyticSe (regInf (fun i : Fin n => y1 (X i ω)) (fun i => y0 (X i ω)) (fun i => d (X i ω)) (fun i => x (X i ω)) (fun i => w (X i ω)))
    some (att, se, Report.didInterval att se)
  | _ => none

/-! ## Specification -/

/-- Treatment as a number. -/
def dn (d : 𝓧 → Bool) (z : 𝓧) : ℝ := if d z then 1 else 0

/-- Moments the theory needs: weighted second moments of the change, the covariates and their products. -/
structure Moments (P : Measure Ω) (X : ℕ → Ω → 𝓧) (dy w : 𝓧 → ℝ) (d : 𝓧 → Bool) (x : 𝓧 → κ → ℝ) : Prop where
  meas_d : Measurable d
  meas_x : ∀ k, Measurable fun z => x z k
  w1 : SqInt P X w
  wy : SqInt P X fun z => w z * dy z
  wx : ∀ k, SqInt P X fun z => w z * x z k
  wxy : ∀ k, SqInt P X fun z => w z * x z k * dy z
  wxx : ∀ k l, SqInt P X fun z => w z * x z k * x z l

/-- The population: conditional parallel trends with a linear model.  `dy0` is the change a unit would have had without treatment; in both arms it is `x · β`
plus a deviation that averages to zero (in the comparison group also when multiplied by each covariate). -/
structure Trends (P : Measure Ω) (X : ℕ → Ω → 𝓧) (dy dy0 w : 𝓧 → ℝ) (d : 𝓧 → Bool) (x : 𝓧 → κ → ℝ) (β : κ → ℝ) : Prop where
  nonneg : ∀ z, 0 ≤ w z
  treated : 0 < pop P X fun z => w z * dn d z
  controls : 0 < pop P X fun z => 1 - dn d z
  rank : (Matrix.of fun k l => pop P X fun z => w z * (1 - dn d z) * x z k * x z l).det ≠ 0
  untreated : ∀ z, w z ≠ 0 → d z = false → dy z = dy0 z
  comparison : ∀ k, pop P X (fun z => w z * (1 - dn d z) * x z k * (dy0 z - ∑ l, x z l * β l)) = 0
  parallel : pop P X (fun z => w z * dn d z * (dy0 z - ∑ l, x z l * β l)) = 0
  int0 : Integrable (fun ω => w (X 0 ω) * dn d (X 0 ω) * dy0 (X 0 ω)) P

/-- The weighted mean effect on the treated. -/
noncomputable def meanATT (P : Measure Ω) (X : ℕ → Ω → 𝓧) (dy dy0 w : 𝓧 → ℝ) (d : 𝓧 → Bool) : ℝ :=
  (pop P X fun z => w z * dn d z * (dy z - dy0 z)) / pop P X fun z => w z * dn d z

/-- The influence of a unit in the population. -/
noncomputable def influence (P : Measure Ω) (X : ℕ → Ω → 𝓧) (dy w : 𝓧 → ℝ) (d : 𝓧 → Bool) (x : 𝓧 → κ → ℝ) (β : κ → ℝ) (θ : ℝ) (z : 𝓧) : ℝ :=
  (w z * dn d z * (dy z - ∑ k, x z k * β k - θ) - ∑ l, (∑ k, (pop P X fun z => w z * dn d z * x z k) *
    minv (fun k l => pop P X fun z => w z * (1 - dn d z) * x z k * x z l) k l) * (w z * (1 - dn d z) * x z l * (dy z - ∑ k, x z k * β k))) /
    pop P X fun z => w z * dn d z

/-! ## The estimator in terms of sample means -/

/-- Weights: of the treated, and of the comparison units times a covariate. -/
def gfun (w : 𝓧 → ℝ) (d : 𝓧 → Bool) (x : 𝓧 → κ → ℝ) : Option κ → 𝓧 → ℝ
  | none, z => w z * dn d z
  | some l, z => w z * (1 - dn d z) * x z l

/-- The change, a constant, the covariates. -/
def hfun (dy : 𝓧 → ℝ) (x : 𝓧 → κ → ℝ) : Option (Option κ) → 𝓧 → ℝ
  | none, z => dy z
  | some none, _ => 1
  | some (some k), z => x z k

/-- Coefficients of a residual. -/
def rcoef (β : κ → ℝ) (θ : ℝ) : Option κ → Option (Option κ) → ℝ
  | _, none => 1
  | none, some none => -θ
  | some _, some none => 0
  | _, some (some k) => -β k

def ffun (dy w : 𝓧 → ℝ) (d : 𝓧 → Bool) (x : 𝓧 → κ → ℝ) (p : Option κ × Option (Option κ)) (z : 𝓧) : ℝ := gfun w d x p.1 z * hfun dy x p.2 z

def ufun (dy w : 𝓧 → ℝ) (d : 𝓧 → Bool) (x : 𝓧 → κ → ℝ) (β : κ → ℝ) (θ : ℝ) (j : Option κ) (z : 𝓧) : ℝ :=
  ∑ m, rcoef β θ j m * ffun dy w d x (j, m) z

/-- Coefficients of the influence function, from the moments `F`. -/
noncomputable def acoef (F : Option κ × Option (Option κ) → ℝ) : Option κ → ℝ
  | none => 1 / F (none, some none)
  | some l => -(∑ k, F (none, some (some k)) * minv (fun k l => F (some k, some (some l))) k l) / F (none, some none)

noncomputable def bcoef (F : Option κ × Option (Option κ) → ℝ) (k : κ) : ℝ := ∑ l, minv (fun k l => F (some k, some (some l))) k l * F (some l, none)

noncomputable def tcoef (F : Option κ × Option (Option κ) → ℝ) : ℝ :=
  (F (none, none) - ∑ k, F (none, some (some k)) * bcoef F k) / F (none, some none)

omit [MeasurableSpace 𝓧] in
theorem ufun_none (dy w : 𝓧 → ℝ) (d : 𝓧 → Bool) (x : 𝓧 → κ → ℝ) (β : κ → ℝ) (θ : ℝ) (z : 𝓧) :
    ufun dy w d x β θ none z = w z * dn d z * (dy z - ∑ k, x z k * β k - θ) := by
  unfold ufun ffun
  rw [Fintype.sum_option, Fintype.sum_option]
  simp only [rcoef, gfun, hfun]
  have : ∑ k, -β k * (w z * dn d z * x z k) = -(w z * dn d z) * ∑ k, x z k * β k := by
    rw [Finset.mul_sum]
    exact Finset.sum_congr rfl fun k _ => by ring
  rw [this]
  ring

omit [MeasurableSpace 𝓧] in
theorem ufun_some (dy w : 𝓧 → ℝ) (d : 𝓧 → Bool) (x : 𝓧 → κ → ℝ) (β : κ → ℝ) (θ : ℝ) (l : κ) (z : 𝓧) :
    ufun dy w d x β θ (some l) z = w z * (1 - dn d z) * x z l * (dy z - ∑ k, x z k * β k) := by
  unfold ufun ffun
  rw [Fintype.sum_option, Fintype.sum_option]
  simp only [rcoef, gfun, hfun]
  have : ∑ k, -β k * (w z * (1 - dn d z) * x z l * x z k) = -(w z * (1 - dn d z) * x z l) * ∑ k, x z k * β k := by
    rw [Finset.mul_sum]
    exact Finset.sum_congr rfl fun k _ => by ring
  rw [this]
  ring

theorem dn_measurable {d : 𝓧 → Bool} (hd : Measurable d) : Measurable (dn d) := by
  unfold dn
  exact Measurable.ite (hd (measurableSet_singleton true)) measurable_const measurable_const

/-- Multiplying by a factor between 0 and 1 keeps second moments. -/
theorem SqInt.mul_le {P : Measure Ω} {X : ℕ → Ω → 𝓧} (hXm : AEMeasurable (X 0) P) {f g : 𝓧 → ℝ} (hf : SqInt P X f) (hg : Measurable g) (hb : ∀ z, |g z| ≤ 1) :
    SqInt P X fun z => f z * g z := by
  refine ⟨hf.1.mul hg, hf.2.mono ((hf.1.mul hg).comp_aemeasurable hXm).aestronglyMeasurable (ae_of_all _ fun ω => ?_)⟩
  rw [norm_mul, Real.norm_eq_abs, Real.norm_eq_abs]
  exact mul_le_of_le_one_right (abs_nonneg _) (hb _)

omit [MeasurableSpace 𝓧] in
theorem dn_01 (d : 𝓧 → Bool) (z : 𝓧) : 0 ≤ dn d z ∧ dn d z ≤ 1 := by
  unfold dn
  split_ifs <;> norm_num

/-! ## Algebra of the moments -/

section
variable (F : Option κ × Option (Option κ) → ℝ) (hdet : (Matrix.of fun k l => F (some k, some (some l))).det ≠ 0)
include hdet

theorem minv_mul (k m : κ) : ∑ l, minv (fun k l => F (some k, some (some l))) k l * F (some l, some (some m)) = if k = m then 1 else 0 := by
  have h := Matrix.nonsing_inv_mul _ (isUnit_iff_ne_zero.2 hdet)
  have h2 := congrFun (congrFun h k) m
  rw [Matrix.mul_apply, Matrix.one_apply] at h2
  exact h2

theorem rsum_none (β : κ → ℝ) (θ : ℝ) : ∑ m, rcoef β θ none m * F (none, m) = F (none, none) - θ * F (none, some none) - ∑ k, β k * F (none, some (some k)) := by
  rw [Fintype.sum_option, Fintype.sum_option]
  simp only [rcoef, neg_mul, Finset.sum_neg_distrib]
  ring

theorem rsum_some (β : κ → ℝ) (θ : ℝ) (l : κ) : ∑ m, rcoef β θ (some l) m * F (some l, m) = F (some l, none) - ∑ k, F (some l, some (some k)) * β k := by
  rw [Fintype.sum_option, Fintype.sum_option]
  simp only [rcoef, neg_mul, Finset.sum_neg_distrib, mul_comm]
  ring

theorem bcoef_sub (β : κ → ℝ) (θ : ℝ) (k : κ) :
    bcoef F k - β k = ∑ l, minv (fun k l => F (some k, some (some l))) k l * ∑ m, rcoef β θ (some l) m * F (some l, m) := by
  simp only [rsum_some F hdet, mul_sub, Finset.sum_sub_distrib]
  unfold bcoef
  congr 1
  simp only [Finset.mul_sum]
  rw [Finset.sum_comm]
  have : ∀ m, ∑ l, minv (fun k l => F (some k, some (some l))) k l * (F (some l, some (some m)) * β m) = if k = m then β m else 0 := by
    intro m
    simp only [← mul_assoc]
    rw [← Finset.sum_mul, minv_mul F hdet]
    split_ifs <;> simp
  rw [Finset.sum_congr rfl fun m _ => this m]
  simp

theorem tcoef_sub (h0 : F (none, some none) ≠ 0) (β : κ → ℝ) (θ : ℝ) :
    tcoef F - θ = ∑ j, acoef F j * ∑ m, rcoef β θ j m * F (j, m) := by
  have hb : ∑ k, F (none, some (some k)) * bcoef F k = ∑ k, F (none, some (some k)) * β k +
      ∑ l, (∑ k, F (none, some (some k)) * minv (fun k l => F (some k, some (some l))) k l) * ∑ m, rcoef β θ (some l) m * F (some l, m) := by
    have : ∀ k, bcoef F k = β k + ∑ l, minv (fun k l => F (some k, some (some l))) k l * ∑ m, rcoef β θ (some l) m * F (some l, m) := fun k => by
      rw [← bcoef_sub F hdet β θ k]; ring
    simp only [this, mul_add, Finset.sum_add_distrib, Finset.sum_mul]
    congr 1
    rw [Finset.sum_comm]
    refine Finset.sum_congr rfl fun l _ => ?_
    simp only [Finset.mul_sum, mul_assoc]
  rw [Fintype.sum_option, rsum_none F hdet]
  simp only [acoef]
  have h2 : ∀ T : κ → ℝ, ∑ l, -(∑ k, F (none, some (some k)) * minv (fun k l => F (some k, some (some l))) k l) / F (none, some none) * T l =
      -(∑ l, (∑ k, F (none, some (some k)) * minv (fun k l => F (some k, some (some l))) k l) * T l) / F (none, some none) := by
    intro T
    rw [← Finset.sum_neg_distrib, Finset.sum_div]
    exact Finset.sum_congr rfl fun l _ => by ring
  rw [h2]
  unfold tcoef
  rw [hb]
  simp only [mul_comm (β _)]
  field_simp
  ring

end

section
variable {A : ℕ → Option κ × Option (Option κ) → ℝ} {F : Option κ × Option (Option κ) → ℝ} (h : ∀ p, Tendsto (fun n => A n p) atTop (𝓝 (F p)))
  (hdet : (Matrix.of fun k l => F (some k, some (some l))).det ≠ 0)
include h hdet

theorem bcoef_tendsto (k : κ) : Tendsto (fun n => bcoef (A n) k) atTop (𝓝 (bcoef F k)) :=
  tendsto_finsetSum _ fun l _ => (minv_tendsto (fun k l => h (some k, some (some l))) hdet k l).mul (h _)

theorem tcoef_tendsto (h0 : F (none, some none) ≠ 0) : Tendsto (fun n => tcoef (A n)) atTop (𝓝 (tcoef F)) :=
  ((h _).sub (tendsto_finsetSum _ fun k _ => (h _).mul (bcoef_tendsto h hdet k))).div (h _) h0

theorem acoef_tendsto (h0 : F (none, some none) ≠ 0) (j : Option κ) : Tendsto (fun n => acoef (A n) j) atTop (𝓝 (acoef F j)) := by
  cases j with
  | none => exact tendsto_const_nhds.div (h _) h0
  | some l => exact (tendsto_finsetSum _ fun k _ => (h _).mul (minv_tendsto (fun k l => h (some k, some (some l))) hdet k l)).neg.div (h _) h0

theorem rcoef_tendsto (h0 : F (none, some none) ≠ 0) (j : Option κ) (m : Option (Option κ)) :
    Tendsto (fun n => rcoef (bcoef (A n)) (tcoef (A n)) j m) atTop (𝓝 (rcoef (bcoef F) (tcoef F) j m)) := by
  rcases j with _ | j <;> rcases m with _ | _ | m <;> simp only [rcoef]
  · exact tendsto_const_nhds
  · exact (tcoef_tendsto h hdet h0).neg
  · exact (bcoef_tendsto h hdet m).neg
  · exact tendsto_const_nhds
  · exact tendsto_const_nhds
  · exact (bcoef_tendsto h hdet m).neg

end

section
variable {P : Measure Ω} {A : Ω → Option κ × Option (Option κ) → ℝ} (h : ∀ p, AEMeasurable (fun ω => A ω p) P)
include h

theorem minv_aem (k l : κ) : AEMeasurable (fun ω => minv (fun k l => A ω (some k, some (some l))) k l) P :=
  (minv_measurable k l).comp_aemeasurable (aemeas_mat fun k l => h (some k, some (some l)))

theorem bcoef_aem (k : κ) : AEMeasurable (fun ω => bcoef (A ω) k) P :=
  Finset.aemeasurable_fun_sum _ fun l _ => (minv_aem h k l).mul (h _)

theorem tcoef_aem : AEMeasurable (fun ω => tcoef (A ω)) P :=
  ((h _).sub (Finset.aemeasurable_fun_sum _ fun k _ => (h _).mul (bcoef_aem h k))).div (h _)

theorem acoef_aem (j : Option κ) : AEMeasurable (fun ω => acoef (A ω) j) P := by
  cases j with
  | none => exact aemeasurable_const.div (h _)
  | some l => exact (Finset.aemeasurable_fun_sum _ fun k _ => (h _).mul (minv_aem h k l)).neg.div (h _)

theorem rcoef_aem (j : Option κ) (m : Option (Option κ)) : AEMeasurable (fun ω => rcoef (bcoef (A ω)) (tcoef (A ω)) j m) P := by
  rcases j with _ | j <;> rcases m with _ | _ | m <;> simp only [rcoef]
  · exact aemeasurable_const
  · exact (tcoef_aem h).neg
  · exact (bcoef_aem h m).neg
  · exact aemeasurable_const
  · exact aemeasurable_const
  · exact (bcoef_aem h m).neg

theorem det_aem : AEMeasurable (fun ω => (Matrix.of fun k l => A ω (some k, some (some l))).det) P :=
  det_cont.measurable.comp_aemeasurable (aemeas_mat fun k l => h (some k, some (some l)))

end

/-! ## The sample in terms of its moments -/

section
variable {ι : Type*} [Fintype ι] (dy w : ι → ℝ) (d : ι → Bool) (x : ι → κ → ℝ)

/-- Sample moments. -/
noncomputable def smom (p : Option κ × Option (Option κ)) : ℝ := DR.mean (ffun dy w d x p)

theorem mean_smul (c : ℝ) (f : ι → ℝ) : DR.mean (fun i => c * f i) = c * DR.mean f := by
  unfold DR.mean
  rw [← Finset.mul_sum, mul_div_assoc]

theorem norm_eq (i : ι) : DR.normalize w i = (DR.mean w)⁻¹ * w i := by
  unfold DR.normalize
  rw [div_eq_inv_mul]

theorem sum_controls [Nonempty ι] (g : ι → ℝ) : ∑ i with notB d i = true, g i = (Fintype.card ι : ℝ) * DR.mean fun i => (1 - dn d i) * g i := by
  unfold DR.mean
  rw [mul_div_cancel₀ _ (Nat.cast_ne_zero.2 Fintype.card_ne_zero), Finset.sum_filter]
  refine Finset.sum_congr rfl fun i _ => ?_
  unfold notB dn
  cases hi : d i <;> simp [hi]

theorem minv_smul (c : ℝ) (hc : c ≠ 0) (A : κ → κ → ℝ) (k l : κ) : minv (fun k l => c * A k l) k l = c⁻¹ * minv A k l := by
  unfold minv
  have : (Matrix.of fun k l => c * A k l) = c • Matrix.of A := by
    ext i j
    simp
  rw [this]
  by_cases h : IsUnit (Matrix.of A).det
  · have hi := Matrix.inv_smul' (Matrix.of A) (Units.mk0 c hc) h
    have h3 := congrFun (congrFun hi k) l
    simpa [Units.smul_def] using h3
  · have h2 : ¬ IsUnit (c • Matrix.of A).det := by
      rw [Matrix.det_smul, isUnit_iff_ne_zero] at *
      simpa [hc] using h
    rw [Matrix.nonsing_inv_apply_not_isUnit _ h, Matrix.nonsing_inv_apply_not_isUnit _ h2]
    simp

theorem minv_symm (A : κ → κ → ℝ) (h : ∀ k l, A k l = A l k) (k l : κ) : minv A k l = minv A l k := by
  unfold minv
  have : (Matrix.of A).transpose = Matrix.of A := by
    ext i j
    simp [h i j]
  have h2 := Matrix.transpose_nonsing_inv (Matrix.of A)
  rw [this] at h2
  have h3 := congrFun (congrFun h2 l) k
  rwa [Matrix.transpose_apply] at h3

variable (hm : DR.mean w ≠ 0)
include hm

theorem ols_smom [Nonempty ι] : Ident.gramOLS (DR.normalize w) (notB d) x dy = bcoef (smom dy w d x) := by
  have hn : (Fintype.card ι : ℝ) ≠ 0 := Nat.cast_ne_zero.2 Fintype.card_ne_zero
  obtain ⟨c, hc⟩ : ∃ c, c = (Fintype.card ι : ℝ) * (DR.mean w)⁻¹ := ⟨_, rfl⟩
  have hc0 : c ≠ 0 := by rw [hc]; exact mul_ne_zero hn (inv_ne_zero hm)
  have h1 : (fun k l => ∑ i with notB d i = true, DR.normalize w i * x i k * x i l) = fun k l => c * smom dy w d x (some k, some (some l)) := by
    funext k l
    rw [sum_controls, hc, mul_assoc, smom, ← mean_smul (DR.mean w)⁻¹]
    congr 2
    funext i
    rw [norm_eq]
    simp only [ffun, gfun, hfun]
    ring
  have h2 : ∀ k, (∑ i with notB d i = true, DR.normalize w i * dy i * x i k) = c * smom dy w d x (some k, none) := by
    intro k
    rw [sum_controls, hc, mul_assoc, smom, ← mean_smul (DR.mean w)⁻¹]
    congr 2
    funext i
    rw [norm_eq]
    simp only [ffun, gfun, hfun]
    ring
  funext k
  unfold Ident.gramOLS bcoef Matrix.mulVec dotProduct
  refine Finset.sum_congr rfl fun l _ => ?_
  dsimp only
  rw [h2, h1]
  change minv (fun k l => c * smom dy w d x (some k, some (some l))) k l * _ = _
  rw [minv_smul c hc0]
  field_simp

theorem wmean_smom (v : ι → ℝ) : wmean (fun i => DR.normalize w i * ind d i) v = DR.mean (fun i => w i * dn d i * v i) / DR.mean fun i => w i * dn d i := by
  unfold wmean
  have h1 : (DR.mean fun i => DR.normalize w i * ind d i * v i) = (DR.mean w)⁻¹ * DR.mean fun i => w i * dn d i * v i := by
    rw [← mean_smul]
    congr 1
    funext i
    rw [norm_eq, ind, dn]
    ring
  have h2 : (DR.mean fun i => DR.normalize w i * ind d i) = (DR.mean w)⁻¹ * DR.mean fun i => w i * dn d i := by
    rw [← mean_smul]
    congr 1
    funext i
    rw [norm_eq, ind, dn]
    ring
  rw [h1, h2, mul_div_mul_left _ _ (inv_ne_zero hm)]

theorem fit_smom (b : κ → ℝ) : (DR.mean fun i => w i * dn d i * fitted x b i) = ∑ k, smom dy w d x (none, some (some k)) * b k := by
  unfold fitted smom DR.mean
  have : ∀ i, w i * dn d i * ∑ k, x i k * b k = ∑ k, ffun dy w d x (none, some (some k)) i * b k := fun i => by
    rw [Finset.mul_sum]
    exact Finset.sum_congr rfl fun k _ => by simp only [ffun, gfun, hfun]; ring
  rw [Finset.sum_congr rfl fun i _ => this i, Finset.sum_comm, Finset.sum_div]
  refine Finset.sum_congr rfl fun k _ => ?_
  rw [← Finset.sum_mul]
  ring

theorem mass_smom : (DR.mean fun i => w i * dn d i) = smom dy w d x (none, some none) := by
  unfold smom
  congr 1
  funext i
  simp only [ffun, gfun, hfun, mul_one]

theorem att_smom : regPanel d (fitted x (bcoef (smom dy w d x))) dy (DR.normalize w) = tcoef (smom dy w d x) := by
  unfold regPanel tcoef
  rw [wmean_smom w d hm, wmean_smom w d hm, fit_smom dy w d x hm, mass_smom dy w d x hm, ← sub_div]
  rfl

theorem inf_smom [Nonempty ι] (hm1 : smom dy w d x (none, some none) ≠ 0) (i : ι) :
    regPanelIF d (fitted x (bcoef (smom dy w d x))) dy (DR.normalize w) x (gramInv (fun i => DR.normalize w i * (1 - ind d i)) x) i =
      ∑ j, acoef (smom dy w d x) j * ufun dy w d x (bcoef (smom dy w d x)) (tcoef (smom dy w d x)) j i := by
  obtain ⟨F, hF⟩ : ∃ F, F = smom dy w d x := ⟨_, rfl⟩
  have hM : ∀ k l, gramInv (fun i => DR.normalize w i * (1 - ind d i)) x k l = DR.mean w * minv (fun k l => F (some k, some (some l))) k l := by
    intro k l
    unfold gramInv
    have : (fun k l => DR.mean fun i => DR.normalize w i * (1 - ind d i) * x i k * x i l) = fun k l => (DR.mean w)⁻¹ * F (some k, some (some l)) := by
      funext k l
      rw [hF, smom, ← mean_smul]
      congr 1
      funext i
      rw [norm_eq, ind]
      simp only [ffun, gfun, hfun, dn]
      ring
    rw [this, minv_smul _ (inv_ne_zero hm), inv_inv]
  have hs : ∀ k l, minv (fun k l => F (some k, some (some l))) k l = minv (fun k l => F (some k, some (some l))) l k :=
    minv_symm _ fun k l => by
      rw [hF, smom, smom]
      congr 1
      funext i
      simp only [ffun, gfun, hfun]
      ring
  have hmt : (DR.mean fun i => DR.normalize w i * ind d i) = (DR.mean w)⁻¹ * F (none, some none) := by
    rw [hF, ← mass_smom dy w d x hm, ← mean_smul]
    congr 1
    funext i
    rw [norm_eq, ind, dn]
    ring
  have hder : ∀ k, (DR.mean fun i => DR.normalize w i * ind d i * x i k) = (DR.mean w)⁻¹ * F (none, some (some k)) := by
    intro k
    rw [hF, smom, ← mean_smul]
    congr 1
    funext i
    rw [norm_eq, ind]
    simp only [ffun, gfun, hfun, dn]
    ring
  have h1 : wmean (fun i => DR.normalize w i * ind d i) dy - wmean (fun i => DR.normalize w i * ind d i) (fitted x (bcoef (smom dy w d x))) = tcoef F := by
    rw [hF, ← att_smom dy w d x hm]
    rfl
  have hdot : dot (alrOLS (fun i => 1 - ind d i) (DR.normalize w) (fun i => dy i - fitted x (bcoef F) i) x
      (gramInv (fun i => DR.normalize w i * (1 - ind d i)) x) i) (fun k => DR.mean fun i => DR.normalize w i * ind d i * x i k) =
      (DR.mean w)⁻¹ * ∑ l, (∑ k, F (none, some (some k)) * minv (fun k l => F (some k, some (some l))) k l) * ufun dy w d x (bcoef F) (tcoef F) (some l) i := by
    unfold dot alrOLS
    simp only [hM, hder, ufun_some, Finset.sum_mul, Finset.mul_sum]
    rw [Finset.sum_comm]
    refine Finset.sum_congr rfl fun l _ => Finset.sum_congr rfl fun k _ => ?_
    rw [hs k l, norm_eq, ind]
    unfold dn fitted
    field_simp
  unfold regPanelIF
  dsimp only
  rw [← hF] at h1 hm1 ⊢
  rw [Fintype.sum_option, hdot, hmt]
  simp only [acoef]
  rw [ufun_none, ← h1]
  have : ∀ S : ℝ, ∀ T : κ → ℝ, ∑ l, -(∑ k, F (none, some (some k)) * minv (fun k l => F (some k, some (some l))) k l) / F (none, some none) * T l =
      -(∑ l, (∑ k, F (none, some (some k)) * minv (fun k l => F (some k, some (some l))) k l) * T l) / F (none, some none) := by
    intro S T
    rw [← Finset.sum_neg_distrib, Finset.sum_div]
    exact Finset.sum_congr rfl fun l _ => by ring
  rw [this 0]
  have hi : DR.normalize w i * ind d i = (DR.mean w)⁻¹ * (w i * dn d i) := by
    rw [norm_eq, ind, dn]
    ring
  rw [hi]
  unfold fitted at *
  field_simp
  ring

end

section
variable {P : Measure Ω} [IsProbabilityMeasure P] {X : ℕ → Ω → 𝓧} (hX : Sampling P X) {dy w : 𝓧 → ℝ} {d : 𝓧 → Bool} {x : 𝓧 → κ → ℝ}
  (hM : Moments P X dy w d x)
include hX hM

theorem ffun_sq (p : Option κ × Option (Option κ)) : SqInt P X (ffun dy w d x p) := by
  have hd := dn_measurable hM.meas_d
  have b1 : ∀ z, |dn d z| ≤ 1 := fun z => by rw [abs_of_nonneg (dn_01 d z).1]; exact (dn_01 d z).2
  have b2 : ∀ z, |1 - dn d z| ≤ 1 := fun z => by
    have := dn_01 d z
    rw [abs_of_nonneg (by linarith)]
    linarith
  have m2 : Measurable fun z => 1 - dn d z := measurable_const.sub hd
  have hXm := hX.aemeas 0
  have t : ∀ {f g : 𝓧 → ℝ}, SqInt P X f → (∀ z, f z = g z) → SqInt P X g := fun hf he => by rwa [← funext he]
  obtain ⟨j, m⟩ := p
  cases j with
  | none =>
    cases m with
    | none => exact t (hM.wy.mul_le hXm hd b1) fun z => by simp only [ffun, gfun, hfun]; ring
    | some m =>
      cases m with
      | none => exact t (hM.w1.mul_le hXm hd b1) fun z => by simp only [ffun, gfun, hfun]; ring
      | some k => exact t ((hM.wx k).mul_le hXm hd b1) fun z => by simp only [ffun, gfun, hfun]; ring
  | some l =>
    cases m with
    | none => exact t ((hM.wxy l).mul_le hXm m2 b2) fun z => by simp only [ffun, gfun, hfun]; ring
    | some m =>
      cases m with
      | none => exact t ((hM.wx l).mul_le hXm m2 b2) fun z => by simp only [ffun, gfun, hfun]; ring
      | some k => exact t ((hM.wxx l k).mul_le hXm m2 b2) fun z => by simp only [ffun, gfun, hfun]; ring

theorem ufun_sq (β : κ → ℝ) (θ : ℝ) (j : Option κ) : SqInt P X (ufun dy w d x β θ j) :=
  ⟨Finset.measurable_fun_sum _ fun m _ => (ffun_sq hX hM (j, m)).1.const_mul _, memLp_finsetSum _ fun m _ => (ffun_sq hX hM (j, m)).2.const_mul _⟩

omit [Fintype κ] [DecidableEq κ] hM in
theorem pop_sum {J : Type*} [Fintype J] (c : J → ℝ) (f : J → 𝓧 → ℝ) (hf : ∀ j, SqInt P X (f j)) : pop P X (fun z => ∑ j, c j * f j z) = ∑ j, c j * pop P X (f j) := by
  unfold pop
  rw [integral_finsetSum _ fun j _ => ((hf j).2.integrable (by norm_num)).const_mul _]
  exact Finset.sum_congr rfl fun j _ => integral_const_mul _ _

omit [IsProbabilityMeasure P] hX hM in
theorem avg_sum {J : Type*} [Fintype J] (c : J → ℝ) (f : J → 𝓧 → ℝ) (n : ℕ) (ω : Ω) : avg X (fun z => ∑ j, c j * f j z) n ω = ∑ j, c j * avg X (f j) n ω := by
  unfold avg
  rw [Finset.sum_comm, Finset.sum_div]
  exact Finset.sum_congr rfl fun j _ => by rw [← Finset.mul_sum, mul_div_assoc]

variable {dy0 : 𝓧 → ℝ} {β : κ → ℝ} (hT : Trends P X dy dy0 w d x β)
include hT

theorem ufun_pop (j : Option κ) : pop P X (ufun dy w d x β (meanATT P X dy dy0 w d) j) = 0 := by
  have hi := fun p => (ffun_sq hX hM p).2.integrable (by norm_num : (1 : ENNReal) ≤ 2)
  cases j with
  | some l =>
    rw [← hT.comparison l]
    unfold pop
    congr 1
    funext ω
    rw [ufun_some]
    cases hd : d (X 0 ω) with
    | false =>
      by_cases hw : w (X 0 ω) = 0
      · simp [hw]
      · rw [hT.untreated _ hw hd]
    | true => simp [dn, hd]
  | none =>
    obtain ⟨θ, hθ⟩ : ∃ θ, θ = meanATT P X dy dy0 w d := ⟨_, rfl⟩
    have h1 : Integrable (fun ω => w (X 0 ω) * dn d (X 0 ω) * dy (X 0 ω)) P := hi (none, none)
    have h2 : Integrable (fun ω => w (X 0 ω) * dn d (X 0 ω)) P := by
      have := hi (none, some none)
      simpa [ffun, gfun, hfun] using this
    have h3 : Integrable (fun ω => w (X 0 ω) * dn d (X 0 ω) * ∑ k, x (X 0 ω) k * β k) P := by
      have : Integrable (fun ω => ∑ k, ffun dy w d x (none, some (some k)) (X 0 ω) * β k) P := integrable_finsetSum _ fun k _ => (hi _).mul_const _
      refine this.congr (ae_of_all _ fun ω => ?_)
      dsimp only
      rw [Finset.mul_sum]
      exact Finset.sum_congr rfl fun k _ => by simp only [ffun, gfun, hfun]; ring
    have e : θ * pop P X (fun z => w z * dn d z) = pop P X (fun z => w z * dn d z * (dy z - dy0 z)) := by
      rw [hθ, meanATT, div_mul_cancel₀ _ hT.treated.ne']
    have e1 : pop P X (fun z => w z * dn d z * (dy z - dy0 z)) = pop P X (fun z => w z * dn d z * dy z) - pop P X fun z => w z * dn d z * dy0 z := by
      unfold pop
      rw [← integral_sub h1 hT.int0]
      congr 1
      funext ω
      ring
    have e2 : pop P X (fun z => w z * dn d z * (dy0 z - ∑ l, x z l * β l)) = pop P X (fun z => w z * dn d z * dy0 z) -
        pop P X fun z => w z * dn d z * ∑ l, x z l * β l := by
      unfold pop
      rw [← integral_sub hT.int0 h3]
      congr 1
      funext ω
      ring
    have e3 : pop P X (ufun dy w d x β θ none) = pop P X (fun z => w z * dn d z * dy z) - (pop P X fun z => w z * dn d z * ∑ l, x z l * β l) -
        θ * pop P X fun z => w z * dn d z := by
      unfold pop
      rw [← integral_const_mul, ← integral_sub h1 h3]
      refine Eq.trans ?_ (integral_sub (h1.sub h3) (h2.const_mul _))
      congr 1
      funext ω
      rw [ufun_none]
      simp only [Pi.sub_apply]
      ring
    rw [← hθ, e3, e, e1]
    have := hT.parallel
    rw [e2] at this
    linarith

/-- Population moments. -/
noncomputable def pmom (P : Measure Ω) (X : ℕ → Ω → 𝓧) (dy w : 𝓧 → ℝ) (d : 𝓧 → Bool) (x : 𝓧 → κ → ℝ) (p : Option κ × Option (Option κ)) : ℝ := pop P X (ffun dy w d x p)

theorem pmom_zero (j : Option κ) : ∑ m, rcoef β (meanATT P X dy dy0 w d) j m * pmom P X dy w d x (j, m) = 0 := by
  rw [← ufun_pop hX hM hT j]
  exact (pop_sum hX _ _ fun m => ffun_sq hX hM (j, m)).symm

theorem pmom_det : (Matrix.of fun k l => pmom P X dy w d x (some k, some (some l))).det ≠ 0 := hT.rank

theorem pmom_mass : pmom P X dy w d x (none, some none) = pop P X fun z => w z * dn d z := by
  unfold pmom ffun gfun hfun
  simp

theorem pmom_b : bcoef (pmom P X dy w d x) = β := by
  funext k
  have := bcoef_sub (pmom P X dy w d x) (pmom_det hX hM hT) β (meanATT P X dy dy0 w d) k
  simp only [pmom_zero hX hM hT, mul_zero, Finset.sum_const_zero] at this
  linarith

theorem pmom_t : tcoef (pmom P X dy w d x) = meanATT P X dy dy0 w d := by
  have := tcoef_sub (pmom P X dy w d x) (pmom_det hX hM hT) (by rw [pmom_mass hX hM hT]; exact hT.treated.ne') β (meanATT P X dy dy0 w d)
  simp only [pmom_zero hX hM hT, mul_zero, Finset.sum_const_zero] at this
  linarith

/-- Samples on which the estimator is defined; `q` counts the comparison units. -/
def good (dy w : 𝓧 → ℝ) (d : 𝓧 → Bool) (x : 𝓧 → κ → ℝ) (q : 𝓧 → ℝ) (X : ℕ → Ω → 𝓧) (n : ℕ) : Set Ω :=
  {ω | 2 ≤ n ∧ avg X (ffun dy w d x (none, some none)) n ω ≠ 0 ∧ (Matrix.of fun k l => avg X (ffun dy w d x (some k, some (some l))) n ω).det ≠ 0 ∧
    (max 1 (Fintype.card κ) : ℕ) ≤ n * avg X q n ω}

theorem plugin (q : 𝓧 → ℝ) (hc2 : SqInt P X q) (hc0 : 0 < pop P X q) (est : ℕ → Ω → ℝ) (inf : (n : ℕ) → Ω → Fin n → ℝ)
    (he : ∀ n, ∀ ω ∈ good dy w d x q X n, est n ω = tcoef fun p => avg X (ffun dy w d x p) n ω)
    (hinf : ∀ n, ∀ ω ∈ good dy w d x q X n, ∀ i : Fin n, inf n ω i = ∑ j, acoef (fun p => avg X (ffun dy w d x p) n ω) j *
      ufun dy w d x (bcoef fun p => avg X (ffun dy w d x p) n ω) (tcoef fun p => avg X (ffun dy w d x p) n ω) j (X i ω)) :
    Plugin P X est inf (meanATT P X dy dy0 w d) (good dy w d x q X)
      (ufun dy w d x β (meanATT P X dy dy0 w d)) (fun n ω => acoef fun p => avg X (ffun dy w d x p) n ω) (acoef (pmom P X dy w d x)) (ffun dy w d x)
      (fun n ω p => acoef (fun p => avg X (ffun dy w d x p) n ω) p.1 *
        rcoef (bcoef fun p => avg X (ffun dy w d x p) n ω) (tcoef fun p => avg X (ffun dy w d x p) n ω) p.1 p.2)
      (fun p => acoef (pmom P X dy w d x) p.1 * rcoef β (meanATT P X dy dy0 w d) p.1 p.2) := by
  have hm : ∀ n p, AEMeasurable (fun ω => avg X (ffun dy w d x p) n ω) P := fun n p => avg_aemeas hX (ffun_sq hX hM p).1 n
  have hl : ∀ᵐ ω ∂P, ∀ p, Tendsto (fun n => avg X (ffun dy w d x p) n ω) atTop (𝓝 (pmom P X dy w d x p)) :=
    ae_all_iff.2 fun p => lln2 hX (ffun_sq hX hM p)
  have h0 : pmom P X dy w d x (none, some none) ≠ 0 := by rw [pmom_mass hX hM hT]; exact hT.treated.ne'
  have hdet := pmom_det hX hM hT
  refine ⟨ufun_sq hX hM _ _, ufun_pop hX hM hT, fun n j => acoef_aem (hm n) j, ?_, ffun_sq hX hM, fun n p => (acoef_aem (hm n) p.1).mul (rcoef_aem (hm n) p.1 p.2), ?_, ?_,
    fun n => ?_, ?_, ?_, ?_⟩
  · filter_upwards [hl] with ω h j
    exact acoef_tendsto h hdet h0 j
  · filter_upwards [hl] with ω h p
    have := (acoef_tendsto h hdet h0 p.1).mul (rcoef_tendsto h hdet h0 p.1 p.2)
    rwa [pmom_b hX hM hT, pmom_t hX hM hT] at this
  · intro z
    rw [Fintype.sum_prod_type]
    refine Finset.sum_congr rfl fun j _ => ?_
    unfold ufun
    rw [Finset.mul_sum]
    exact Finset.sum_congr rfl fun m _ => by ring
  · unfold good
    by_cases hn : 2 ≤ n
    · have h1 : NullMeasurableSet {ω | avg X (ffun dy w d x (none, some none)) n ω ≠ 0} P := (hm n _).nullMeasurable (measurableSet_singleton 0).compl
      have h2 : NullMeasurableSet {ω | (Matrix.of fun k l => avg X (ffun dy w d x (some k, some (some l))) n ω).det ≠ 0} P :=
        (det_aem (hm n)).nullMeasurable (measurableSet_singleton 0).compl
      have h3 : NullMeasurableSet {ω | ((max 1 (Fintype.card κ) : ℕ) : ℝ) ≤ n * avg X q n ω} P :=
        ((avg_aemeas hX hc2.1 n).const_mul _).nullMeasurable measurableSet_Ici
      convert (h1.inter (h2.inter h3)) using 1
      ext ω
      simp [hn]
    · convert MeasurableSet.empty.nullMeasurableSet using 1
      ext ω
      simp [hn]
  · filter_upwards [hl, lln2 hX hc2] with ω h hc
    have h1 := (h (none, some none)).eventually_ne h0
    have h2 := det_eventually (A := fun n k l => avg X (ffun dy w d x (some k, some (some l))) n ω) (fun k l => h (some k, some (some l))) hdet
    have h3 : Tendsto (fun n : ℕ => (n : ℝ) * avg X q n ω) atTop atTop := tendsto_natCast_atTop_atTop.atTop_mul_pos hc0 hc
    filter_upwards [h1, h2, h3.eventually_ge_atTop _, eventually_ge_atTop 2] with n a1 a2 a3 a4
    exact ⟨a4, a1, a2, a3⟩
  · intro n ω hω
    rw [he n ω hω, tcoef_sub (fun p => avg X (ffun dy w d x p) n ω) hω.2.2.1 hω.2.1 β]
    refine Finset.sum_congr rfl fun j _ => ?_
    congr 1
    exact (avg_sum (fun m => rcoef β (meanATT P X dy dy0 w d) j m) (fun m => ffun dy w d x (j, m)) n ω).symm
  · intro n ω hω i
    rw [hinf n ω hω, Fintype.sum_prod_type]
    refine Finset.sum_congr rfl fun j _ => ?_
    unfold ufun
    rw [Finset.mul_sum]
    exact Finset.sum_congr rfl fun m _ => by ring

end

theorem controls_sq {P : Measure Ω} [IsProbabilityMeasure P] {X : ℕ → Ω → 𝓧} (hX : Sampling P X) {d : 𝓧 → Bool} (hd : Measurable d) : SqInt P X fun z => 1 - dn d z := by
  have hd := dn_measurable hd
  have h1 : SqInt P X fun _ : 𝓧 => (1 : ℝ) := ⟨measurable_const, memLp_const 1⟩
  have := h1.mul_le (hX.aemeas 0) (measurable_const.sub hd : Measurable fun z => 1 - dn d z) fun z => by
    have := dn_01 d z
    change |1 - dn d z| ≤ 1
    rw [abs_of_nonneg (by linarith)]
    linarith
  simpa using this

/-! ## The report -/

/-- The estimator and its influence function on arrays, in terms of the sample moments. -/
theorem reg_array {ι : Type*} [Fintype ι] [Nonempty ι] (y1 y0 w : ι → ℝ) (d : ι → Bool) (x : ι → κ → ℝ) (hw : ∀ i, 0 ≤ w i)
    (h0 : smom (fun i => y1 i - y0 i) w d x (none, some none) ≠ 0) (hnc : (max 1 (Fintype.card κ)) ≤ (Finset.univ.filter fun i => d i = false).card) :
    regDidPanel Ident.gramOLS y1 y0 d x w = .ok (some (tcoef (smom (fun i => y1 i - y0 i) w d x))) ∧
    ∀ i, regInf y1 y0 d x w i = ∑ j, acoef (smom (fun i => y1 i - y0 i) w d x) j *
      ufun (fun i => y1 i - y0 i) w d x (bcoef (smom (fun i => y1 i - y0 i) w d x)) (tcoef (smom (fun i => y1 i - y0 i) w d x)) j i := by
  have hm : DR.mean w ≠ 0 := by
    intro hm
    unfold DR.mean at hm
    rw [div_eq_zero_iff, or_iff_left (Nat.cast_ne_zero.2 Fintype.card_ne_zero), Finset.sum_eq_zero_iff_of_nonneg fun i _ => hw _] at hm
    refine h0 ?_
    unfold smom DR.mean
    rw [Finset.sum_eq_zero fun i hi => ?_, zero_div]
    simp [ffun, gfun, hm i hi]
  refine ⟨?_, fun i => ?_⟩
  · have hmt : DR.mean (fun i => DR.normalize w i * ind d i) ≠ 0 := by
      have : (DR.mean fun i => DR.normalize w i * ind d i) = (DR.mean w)⁻¹ * DR.mean fun i => w i * dn d i := by
        rw [← mean_smul]
        congr 1
        funext i
        rw [norm_eq, ind, dn]
        ring
      rw [this, mass_smom (fun i => y1 i - y0 i) w d x hm]
      exact mul_ne_zero (inv_ne_zero hm) h0
    unfold regDidPanel
    dsimp only
    rw [if_neg (by push Not; exact fun i => hw _), if_neg (by omega), if_neg hmt, if_neg (by omega), ols_smom _ _ _ _ hm, att_smom _ _ _ _ hm]
  · unfold regInf
    rw [ols_smom _ _ _ _ hm, inf_smom _ _ _ _ hm h0]

theorem avg_smom (dy w : 𝓧 → ℝ) (d : 𝓧 → Bool) (x : 𝓧 → κ → ℝ) (X : ℕ → Ω → 𝓧) (n : ℕ) (ω : Ω) : (fun p => avg X (ffun dy w d x p) n ω) =
    smom (fun i : Fin n => dy (X i ω)) (fun i => w (X i ω)) (fun i => d (X i ω)) (fun i => x (X i ω)) := by
  funext p
  rw [← mean_eq, smom]
  congr 1
  funext i
  rcases p with ⟨_ | _, _ | _ | _⟩ <;> rfl

omit [MeasurableSpace 𝓧] in
theorem ufun_comp {ι : Type*} (dy w : 𝓧 → ℝ) (d : 𝓧 → Bool) (x : 𝓧 → κ → ℝ) (X : ι → 𝓧) (β : κ → ℝ) (θ : ℝ) (j : Option κ) (i : ι) :
    ufun (fun i => dy (X i)) (fun i => w (X i)) (fun i => d (X i)) (fun i => x (X i)) β θ j i = ufun dy w d x β θ j (X i) := by
  unfold ufun
  refine Finset.sum_congr rfl fun m _ => ?_
  rcases j with _ | _ <;> rcases m with _ | _ | _ <;> rfl

theorem count_avg (f : 𝓧 → Bool) (q : 𝓧 → ℝ) (hq : ∀ z, q z = if f z = true then 1 else 0) (X : ℕ → Ω → 𝓧) (n : ℕ) (hn : n ≠ 0) (ω : Ω) :
    (n : ℝ) * avg X q n ω = (Finset.univ.filter fun i : Fin n => f (X i ω) = true).card := by
  rw [← mean_eq, DR.mean, Fintype.card_fin, mul_div_cancel₀ _ (Nat.cast_ne_zero.2 hn), Finset.card_filter, Nat.cast_sum]
  refine Finset.sum_congr rfl fun i _ => ?_
  rw [hq]
  split_ifs <;> simp

theorem report_eq {y1 y0 w : 𝓧 → ℝ} {d : 𝓧 → Bool} {x : 𝓧 → κ → ℝ} (hw : ∀ z, 0 ≤ w z) (X : ℕ → Ω → 𝓧) (n : ℕ) (ω : Ω)
    (hω : ω ∈ good (fun z => y1 z - y0 z) w d x (fun z => 1 - dn d z) X n) :
    regDidPanel Ident.gramOLS (fun i : Fin n => y1 (X i ω)) (fun i => y0 (X i ω)) (fun i => d (X i ω)) (fun i => x (X i ω)) (fun i => w (X i ω)) =
      .ok (some (tcoef fun p => avg X (ffun (fun z => y1 z - y0 z) w d x p) n ω)) ∧
    ∀ i : Fin n, regInf (fun i : Fin n => y1 (X i ω)) (fun i => y0 (X i ω)) (fun i => d (X i ω)) (fun i => x (X i ω)) (fun i => w (X i ω)) i =
      ∑ j, acoef (fun p => avg X (ffun (fun z => y1 z - y0 z) w d x p) n ω) j *
      ufun (fun z => y1 z - y0 z) w d x (bcoef fun p => avg X (ffun (fun z => y1 z - y0 z) w d x p) n ω)
        (tcoef fun p => avg X (ffun (fun z => y1 z - y0 z) w d x p) n ω) j (X i ω) := by
  obtain ⟨hn, h0, hdet, hc⟩ := hω
  have : Nonempty (Fin n) := ⟨⟨0, by omega⟩⟩
  have hF := avg_smom (fun z => y1 z - y0 z) w d x X n ω
  rw [show avg X (ffun (fun z => y1 z - y0 z) w d x (none, some none)) n ω = _ from congrFun hF (none, some none)] at h0
  have hnc : (max 1 (Fintype.card κ)) ≤ (Finset.univ.filter fun i : Fin n => d (X i ω) = false).card := by
    rw [count_avg (fun z => !d z) _ (fun z => by unfold dn; cases d z <;> simp) X n (by omega)] at hc
    simpa using hc
  rw [hF]
  obtain ⟨h1, h2⟩ := reg_array (fun i : Fin n => y1 (X i ω)) (fun i => y0 (X i ω)) (fun i => w (X i ω)) (fun i => d (X i ω)) (fun i => x (X i ω)) (fun i => hw _) h0 hnc
  refine ⟨h1, fun i => ?_⟩
  rw [h2]
  refine Finset.sum_congr rfl fun j _ => ?_
  congr 1
  exact ufun_comp (fun z => y1 z - y0 z) w d x (fun i : Fin n => X i ω) _ _ j i

section
variable {P : Measure Ω} [IsProbabilityMeasure P] {X : ℕ → Ω → 𝓧} (hX : Sampling P X) {y1 y0 w : 𝓧 → ℝ} {d : 𝓧 → Bool} {x : 𝓧 → κ → ℝ}
  (hM : Moments P X (fun z => y1 z - y0 z) w d x) {dy0 : 𝓧 → ℝ} {β : κ → ℝ} (hT : Trends P X (fun z => y1 z - y0 z) dy0 w d x β)
include hX hM hT

theorem influence_eq (z : 𝓧) : ∑ j, acoef (pmom P X (fun z => y1 z - y0 z) w d x) j * ufun (fun z => y1 z - y0 z) w d x β (meanATT P X (fun z => y1 z - y0 z) dy0 w d) j z =
    influence P X (fun z => y1 z - y0 z) w d x β (meanATT P X (fun z => y1 z - y0 z) dy0 w d) z := by
  unfold influence
  rw [Fintype.sum_option, ufun_none]
  simp only [acoef, ufun_some, pmom_mass hX hM hT]
  rw [sub_div, ← sub_neg_eq_add, ← Finset.sum_neg_distrib, Finset.sum_div]
  congr 1
  · ring
  · refine Finset.sum_congr rfl fun l _ => ?_
    unfold pmom ffun gfun hfun
    ring

/-- **C258 (consistency).**  With probability one `reg_did_panel` reports, from some sample size on, an estimate that tends to the mean effect on the treated,
and `√n` times the standard error tends to the standard deviation of the influence function. -/
theorem C258_limit : ∀ᵐ ω ∂P, ∃ att se : ℕ → ℝ,
    (∀ᶠ n in atTop, ∃ ci, regReport y1 y0 w d x X n ω = some (att n, se n, ci)) ∧
    Tendsto att atTop (𝓝 (meanATT P X (fun z => y1 z - y0 z) dy0 w d)) ∧
    Tendsto (fun n : ℕ => Real.sqrt n * se n) atTop (𝓝 (Real.sqrt (pop P X fun z =>
      influence P X (fun z => y1 z - y0 z) w d x β (meanATT P X (fun z => y1 z - y0 z) dy0 w d) z ^ 2))) := by
  have hp := plugin hX hM hT _ (controls_sq hX hM.meas_d) hT.controls (fun n ω => tcoef fun p => avg X (ffun (fun z => y1 z - y0 z) w d x p) n ω)
    (fun n ω => regInf (fun i : Fin n => y1 (X i ω)) (fun i => y0 (X i ω)) (fun i => d (X i ω)) (fun i => x (X i ω)) (fun i => w (X i ω)))
    (fun _ _ _ => rfl) fun n ω hω => (report_eq hT.nonneg X n ω hω).2
  filter_upwards [hp.consistent hX, hp.se_limit hX, hp.Gev] with ω h1 h2 h3
  simp only [influence_eq hX hM hT] at h2
  refine ⟨_, _, ?_, h1, h2⟩
  filter_upwards [h3] with n hn
  unfold regReport
  rw [(report_eq hT.nonneg X n ω hn).1]
  exact ⟨_, rfl⟩

/-- **C258 (coverage).**  The probability that the reported interval contains the mean effect on the treated tends to the standard normal probability of
`[-1.96, 1.96]`, slightly above 95%. -/
theorem C258_coverage (hv : 0 < pop P X fun z => influence P X (fun z => y1 z - y0 z) w d x β (meanATT P X (fun z => y1 z - y0 z) dy0 w d) z ^ 2) :
    ∃ p : ℝ, Tendsto (fun n => P.real {ω | ∃ att se lo hi, regReport y1 y0 w d x X n ω = some (att, se, (lo, hi)) ∧
      lo ≤ meanATT P X (fun z => y1 z - y0 z) dy0 w d ∧ meanATT P X (fun z => y1 z - y0 z) dy0 w d ≤ hi}) atTop (𝓝 p) ∧ 950 / 1000 < p ∧ p < 95002 / 100000 := by
  have hp := plugin hX hM hT _ (controls_sq hX hM.meas_d) hT.controls (fun n ω => tcoef fun p => avg X (ffun (fun z => y1 z - y0 z) w d x p) n ω)
    (fun n ω => regInf (fun i : Fin n => y1 (X i ω)) (fun i => y0 (X i ω)) (fun i => d (X i ω)) (fun i => x (X i ω)) (fun i => w (X i ω)))
    (fun _ _ _ => rfl) fun n ω hω => (report_eq hT.nonneg X n ω hω).2
  refine ⟨Phi (196 / 100) - Phi (-(196 / 100)), ?_, ?_, ?_⟩
  · refine hp.coverage hX (196 / 100) (by norm_num) (by simpa only [influence_eq hX hM hT] using hv) (fun _ => 1) tendsto_const_nhds _ fun n ω hω => ?_
    have hr := (report_eq hT.nonneg X n ω hω).1
    rw [Set.mem_ofPred_eq, mul_one, ← analyticSe_eq hω.1]
    unfold regReport
    rw [hr]
    constructor
    · rintro ⟨a, s, lo, hi, h, h1, h2⟩
      simp only [Option.some.injEq, Prod.mk.injEq] at h
      obtain ⟨-, -, h⟩ := h
      rw [Prod.ext_iff] at h
      simp only [Report.didInterval, Report.rowInterval] at h
      rw [← h.1] at h1
      rw [← h.2] at h2
      exact ⟨h1, h2⟩
    · rintro ⟨h1, h2⟩
      exact ⟨_, _, _, _, rfl, h1, h2⟩
  · have := Report.phi_196_lower
    rw [phi_neg]
    linarith
  · have := Report.phi_196_upper
    rw [phi_neg]
    linarith

end

/-! ## A population that meets the hypotheses -/

/-- Treatment, a covariate, a shock: three fair coins. -/
abbrev Coins := Bool × Bool × Bool

def num (b : Bool) : ℝ := if b then 1 else 0

def exY0 (z : Coins) : ℝ := 5 * num z.2.1
def exD0 (z : Coins) : ℝ := 1 + 2 * num z.2.1 + (2 * num z.2.2 - 1)
def exY1 (z : Coins) : ℝ := exY0 z + exD0 z + num z.1 * (3 + 2 * num z.2.1)
def exW (z : Coins) : ℝ := 1 + num z.2.1
def exX (z : Coins) : Fin 2 → ℝ := ![1, num z.2.1]

theorem ex_moments : Moments (draws Coins) draw (fun z => exY1 z - exY0 z) exW (fun z => z.1) exX :=
  ⟨measurable_of_finite _, fun _ => measurable_of_finite _, draws_sq _, draws_sq _, fun _ => draws_sq _, fun _ => draws_sq _, fun _ _ => draws_sq _⟩

theorem ex_pop (f : Coins → ℝ) : pop (draws Coins) draw f = (f (true, true, true) + f (true, true, false) + f (true, false, true) + f (true, false, false) +
    f (false, true, true) + f (false, true, false) + f (false, false, true) + f (false, false, false)) / 8 := by
  rw [draws_pop]
  simp only [Fintype.sum_prod_type, Fintype.sum_bool, Fintype.card_prod, Fintype.card_bool]
  norm_num
  ring

theorem ex_trends : Trends (draws Coins) draw (fun z => exY1 z - exY0 z) exD0 exW (fun z => z.1) exX ![1, 2] := by
  refine ⟨fun z => ?_, ?_, ?_, ?_, fun z _ hz => ?_, fun k => ?_, ?_, draws_int fun z => exW z * dn (fun z => z.1) z * exD0 z⟩
  · unfold exW num
    split_ifs <;> norm_num
  · rw [ex_pop]; norm_num [exW, num, dn]
  · rw [ex_pop]; norm_num [dn]
  · simp only [ex_pop]
    rw [Matrix.det_fin_two]
    norm_num [exW, num, dn, exX]
  · norm_num [exY1, hz, num]
  · rw [ex_pop]
    fin_cases k <;> norm_num [exW, num, dn, exX, exD0, Fin.sum_univ_two]
  · rw [ex_pop]
    norm_num [exW, num, dn, exX, exD0, Fin.sum_univ_two]

theorem ex_att : meanATT (draws Coins) draw (fun z => exY1 z - exY0 z) exD0 exW (fun z => z.1) = 13 / 3 := by
  unfold meanATT
  rw [ex_pop, ex_pop]
  norm_num [exW, num, dn, exY1, exY0, exD0]

theorem ex_var : 0 < pop (draws Coins) draw fun z => influence (draws Coins) draw (fun z => exY1 z - exY0 z) exW (fun z => z.1) exX ![1, 2] (13 / 3) z ^ 2 := by
  have h : influence (draws Coins) draw (fun z => exY1 z - exY0 z) exW (fun z => z.1) exX ![1, 2] (13 / 3) (true, false, true) = -4 / 9 := by
    unfold influence
    simp only [ex_pop, Fin.sum_univ_two]
    norm_num [exW, num, dn, exX, exY1, exY0, exD0]
  rw [ex_pop]
  have := sq_nonneg (influence (draws Coins) draw (fun z => exY1 z - exY0 z) exW (fun z => z.1) exX ![1, 2] (13 / 3) (true, true, true))
  have h2 : 0 < influence (draws Coins) draw (fun z => exY1 z - exY0 z) exW (fun z => z.1) exX ![1, 2] (13 / 3) (true, false, true) ^ 2 := by rw [h]; norm_num
  positivity

example : ∀ᵐ ω ∂draws Coins, ∃ att se : ℕ → ℝ, (∀ᶠ n in atTop, ∃ ci, regReport exY1 exY0 exW (fun z => z.1) exX draw n ω = some (att n, se n, ci)) ∧
    Tendsto att atTop (𝓝 (13 / 3)) := by
  filter_upwards [C258_limit draws_sampling ex_moments ex_trends] with ω ⟨a, s, h1, h2, _⟩
  exact ⟨a, s, h1, ex_att ▸ h2⟩

example : ∃ p : ℝ, Tendsto (fun n => (draws Coins).real {ω | ∃ att se lo hi, regReport exY1 exY0 exW (fun z => z.1) exX draw n ω = some (att, se, (lo, hi)) ∧
    lo ≤ 13 / 3 ∧ 13 / 3 ≤ hi}) atTop (𝓝 p) ∧ 950 / 1000 < p ∧ p < 95002 / 100000 := by
  have := C258_coverage draws_sampling ex_moments ex_trends (by rw [ex_att]; exact ex_var)
  rwa [ex_att] at this

end Verif.Asym
