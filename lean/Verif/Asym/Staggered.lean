import Verif.Asym.Combine

set_option linter.unusedSectionVars false
set_option linter.unusedSimpArgs false

/-!
# C259: cells of `att_gt` with regression adjustment, in large samples
-/

namespace Verif.Asym

open MeasureTheory ProbabilityTheory Filter Topology Verif.Honest Verif.DR Verif.Prep

variable {Ω 𝓧 κ : Type*} [MeasurableSpace Ω] [MeasurableSpace 𝓧] [Fintype κ] [DecidableEq κ]

/-! ## Specification -/

/-- 1 for units first treated in `g`. -/
def isG (G : 𝓧 → WithTop ℤ) (g : ℤ) (z : 𝓧) : ℝ := if G z = (g : WithTop ℤ) then 1 else 0

/-- 1 for the documented comparison units of the cell of cohort `g` and the periods `t`, `b`: never treated, or not yet treated in either period (with
anticipation `a`) and of another cohort. -/
def isC (G : 𝓧 → WithTop ℤ) (cg : ControlGroup) (a g t b : ℤ) (z : 𝓧) : ℝ :=
  if G z ≠ (g : WithTop ℤ) ∧ IsComparison cg (max t b + a) (G z) then 1 else 0

/-- The population effect of treatment on cohort `g` in period `t`; `y` are the outcomes, `y0` those without treatment. -/
noncomputable def cellATT (P : Measure Ω) (X : ℕ → Ω → 𝓧) (G : 𝓧 → WithTop ℤ) (y y0 : 𝓧 → ℤ → ℝ) (w : 𝓧 → ℝ) (g t : ℤ) : ℝ :=
  (pop P X fun z => w z * isG G g z * (y z t - y0 z t)) / pop P X fun z => w z * isG G g z

/-- What the theory needs of a cell: base period before the anticipation window, no anticipation, cohort and comparison units present, full rank, and
conditional parallel trends with a linear model between the two periods. -/
structure CellOK (P : Measure Ω) (X : ℕ → Ω → 𝓧) (G : 𝓧 → WithTop ℤ) (y y0 : 𝓧 → ℤ → ℝ) (w : 𝓧 → ℝ) (cg : ControlGroup) (a g t b : ℤ) (x : 𝓧 → κ → ℝ)
    (β : κ → ℝ) : Prop where
  nonneg : ∀ z, 0 ≤ w z
  noAnticipation : ∀ z t', ((t' + a : ℤ) : WithTop ℤ) < G z → y z t' = y0 z t'
  base : b + a < g
  measG : ∀ A : Set (WithTop ℤ), MeasurableSet (G ⁻¹' A)
  meas_x : ∀ k, Measurable fun z => x z k
  w1 : SqInt P X w
  wy : SqInt P X fun z => w z * (y z t - y z b)
  wx : ∀ k, SqInt P X fun z => w z * x z k
  wxy : ∀ k, SqInt P X fun z => w z * x z k * (y z t - y z b)
  wxx : ∀ k l, SqInt P X fun z => w z * x z k * x z l
  cohort : 0 < pop P X fun z => w z * isG G g z
  others : 0 < pop P X (isC G cg a g t b)
  rank : (Matrix.of fun k l => pop P X fun z => w z * isC G cg a g t b z * x z k * x z l).det ≠ 0
  comparison : ∀ k, pop P X (fun z => w z * isC G cg a g t b z * x z k * (y0 z t - y0 z b - ∑ l, x z l * β l)) = 0
  parallel : pop P X (fun z => w z * isG G g z * (y0 z t - y0 z b - ∑ l, x z l * β l)) = 0
  int0 : Integrable (fun ω => w (X 0 ω) * isG G g (X 0 ω) * (y0 (X 0 ω) t - y0 (X 0 ω) b)) P

/-- The influence of a unit on the cell in the population. -/
noncomputable def cellInfluence (P : Measure Ω) (X : ℕ → Ω → 𝓧) (G : 𝓧 → WithTop ℤ) (y y0 : 𝓧 → ℤ → ℝ) (w : 𝓧 → ℝ) (cg : ControlGroup) (a g t b : ℤ)
    (x : 𝓧 → κ → ℝ) (β : κ → ℝ) (z : 𝓧) : ℝ :=
  (w z * isG G g z * (y z t - y z b - ∑ k, x z k * β k - cellATT P X G y y0 w g t) -
    ∑ l, (∑ k, (pop P X fun z => w z * isG G g z * x z k) * minv (fun k l => pop P X fun z => w z * isC G cg a g t b z * x z k * x z l) k l) *
      (w z * isC G cg a g t b z * x z l * (y z t - y z b - ∑ k, x z k * β k))) / pop P X fun z => w z * isG G g z

/-! ## Model: the cell in a sample -/

/-- Estimate of the cell from the first `n` units; roles as in `get_did_cohort_index` (C19), `compute_att_gt.py:113-204`. -/
noncomputable def attEst (G : 𝓧 → WithTop ℤ) (y : 𝓧 → ℤ → ℝ) (w : 𝓧 → ℝ) (cg : ControlGroup) (a g t b : ℤ) (x : 𝓧 → κ → ℝ) (X : ℕ → Ω → 𝓧) (n : ℕ) (ω : Ω) : Option ℝ :=
  cellEst (fun i : Fin n => role cg (max t b + a) g (G (X i ω))) (fun i => y (X i ω) t) (fun i => y (X i ω) b) (fun i => w (X i ω)) fun i => x (X i ω)

/-- Its influence function, `compute_att_gt.py:360-361`. -/
noncomputable def attInf (G : 𝓧 → WithTop ℤ) (y : 𝓧 → ℤ → ℝ) (w : 𝓧 → ℝ) (cg : ControlGroup) (a g t b : ℤ) (x : 𝓧 → κ → ℝ) (X : ℕ → Ω → 𝓧) (n : ℕ) (ω : Ω) : Fin n → ℝ :=
  cellInf (fun i : Fin n => role cg (max t b + a) g (G (X i ω))) (fun i => y (X i ω) t) (fun i => y (X i ω) b) (fun i => w (X i ω)) fun i => x (X i ω)

/-! ## From cells to the two-period estimator -/

section
variable {G : 𝓧 → WithTop ℤ} {cg : ControlGroup} {a g t b : ℤ}

/-- Role of a unit. -/
def rl (G : 𝓧 → WithTop ℤ) (cg : ControlGroup) (a g t b : ℤ) (z : 𝓧) : Option Bool := role cg (max t b + a) g (G z)

omit [MeasurableSpace 𝓧] in
theorem rl_true (z : 𝓧) : inCell (rl G cg a g t b) z * dn (fun z => decide (rl G cg a g t b z = some true)) z = isG G g z := by
  unfold inCell dn rl role isG
  split_ifs <;> simp_all

omit [MeasurableSpace 𝓧] in
theorem rl_false (z : 𝓧) : inCell (rl G cg a g t b) z * (1 - dn (fun z => decide (rl G cg a g t b z = some true)) z) = isC G cg a g t b z := by
  unfold inCell dn rl role isC
  by_cases h1 : G z = (g : WithTop ℤ) <;> by_cases h2 : IsComparison cg (max t b + a) (G z) <;> simp [h1, h2]

omit [MeasurableSpace 𝓧] in
theorem isC_eq (z : 𝓧) : isC G cg a g t b z = if decide (rl G cg a g t b z = some false) = true then 1 else 0 := by
  unfold rl role isC
  by_cases h1 : G z = (g : WithTop ℤ) <;> by_cases h2 : IsComparison cg (max t b + a) (G z) <;> simp [h1, h2]

omit [MeasurableSpace 𝓧] in
theorem comparison_lt (z : 𝓧) (h : isC G cg a g t b z ≠ 0) : ((max t b + a : ℤ) : WithTop ℤ) < G z := by
  unfold isC at h
  split_ifs at h with h1
  · obtain ⟨-, h2⟩ := h1
    unfold IsComparison at h2
    cases cg with
    | neverTreated => simp only at h2; rw [h2]; exact WithTop.coe_lt_top _
    | notYetTreated => exact h2
  · exact absurd rfl h

end

section
variable {P : Measure Ω} [IsProbabilityMeasure P] {X : ℕ → Ω → 𝓧} (hX : Sampling P X) {G : 𝓧 → WithTop ℤ} {y y0 : 𝓧 → ℤ → ℝ} {w : 𝓧 → ℝ} {cg : ControlGroup}
  {a g t b : ℤ} {x : 𝓧 → κ → ℝ} {β : κ → ℝ} (hC : CellOK P X G y y0 w cg a g t b x β)
include hX hC

theorem rl_meas (q : Option Bool → Bool) : Measurable fun z => q (rl G cg a g t b z) :=
  measurable_to_bool (hC.measG {c | q (role cg (max t b + a) g c) = true})

theorem inCell_meas : Measurable (inCell (rl G cg a g t b)) := by
  unfold inCell
  exact Measurable.ite (rl_meas hX hC Option.isSome (measurableSet_singleton true)) measurable_const measurable_const

theorem cell_moments : Moments P X (fun z => y z t - y z b) (fun z => w z * inCell (rl G cg a g t b) z) (fun z => decide (rl G cg a g t b z = some true)) x := by
  have hi := inCell_meas hX hC
  have hb : ∀ z, |inCell (rl G cg a g t b) z| ≤ 1 := fun z => by unfold inCell; split_ifs <;> norm_num
  have hXm := hX.aemeas 0
  have tr : ∀ {f g : 𝓧 → ℝ}, SqInt P X f → (∀ z, f z = g z) → SqInt P X g := fun hf he => by rwa [← funext he]
  exact ⟨rl_meas hX hC fun s => decide (s = some true), hC.meas_x, hC.w1.mul_le hXm hi hb, tr (hC.wy.mul_le hXm hi hb) fun z => by ring,
    fun k => tr ((hC.wx k).mul_le hXm hi hb) fun z => by ring, fun k => tr ((hC.wxy k).mul_le hXm hi hb) fun z => by ring,
    fun k l => tr ((hC.wxx k l).mul_le hXm hi hb) fun z => by ring⟩

theorem isC_sq : SqInt P X (isC G cg a g t b) := by
  have h1 : SqInt P X fun _ : 𝓧 => (1 : ℝ) := ⟨measurable_const, memLp_const 1⟩
  have hm : Measurable (isC G cg a g t b) := by
    rw [funext isC_eq]
    exact Measurable.ite (rl_meas hX hC (fun s => decide (s = some false)) (measurableSet_singleton true)) measurable_const measurable_const
  have := h1.mul_le (hX.aemeas 0) hm fun z => by unfold isC; split_ifs <;> norm_num
  simpa using this

theorem cell_trends : Trends P X (fun z => y z t - y z b) (fun z => y0 z t - y0 z b) (fun z => w z * inCell (rl G cg a g t b) z)
    (fun z => decide (rl G cg a g t b z = some true)) x β := by
  have e1 : ∀ z, w z * inCell (rl G cg a g t b) z * dn (fun z => decide (rl G cg a g t b z = some true)) z = w z * isG G g z := fun z => by rw [mul_assoc, rl_true]
  have e2 : ∀ z, w z * inCell (rl G cg a g t b) z * (1 - dn (fun z => decide (rl G cg a g t b z = some true)) z) = w z * isC G cg a g t b z := fun z => by
    rw [mul_assoc, rl_false]
  refine ⟨fun z => mul_nonneg (hC.nonneg z) (by unfold inCell; split_ifs <;> norm_num), by simpa only [e1] using hC.cohort, ?_, by simpa only [e2] using hC.rank,
    fun z hz hd => ?_, fun k => by simpa only [e2] using hC.comparison k, by simpa only [e1] using hC.parallel, by simpa only [e1] using hC.int0⟩
  · refine hC.others.trans_le ?_
    unfold pop
    refine integral_mono ((isC_sq hX hC).2.integrable (by norm_num))
      ((controls_sq hX (rl_meas hX hC fun s => decide (s = some true))).2.integrable (by norm_num)) fun ω => ?_
    dsimp only
    rw [← rl_false]
    have := dn_01 (fun z => decide (rl G cg a g t b z = some true)) (X 0 ω)
    refine mul_le_of_le_one_left (by linarith) ?_
    unfold inCell
    split_ifs <;> norm_num
  · have h : isC G cg a g t b z ≠ 0 := by
      rw [← rl_false]
      simp only [dn, hd]
      simpa using (mul_ne_zero_iff.1 hz).2
    have hlt := comparison_lt z h
    have : ∀ t', t' ≤ max t b → y z t' = y0 z t' := fun t' ht => hC.noAnticipation z t' (lt_of_le_of_lt (WithTop.coe_le_coe.2 (by omega)) hlt)
    rw [this t (le_max_left _ _), this b (le_max_right _ _)]

theorem cell_target : meanATT P X (fun z => y z t - y z b) (fun z => y0 z t - y0 z b) (fun z => w z * inCell (rl G cg a g t b) z)
    (fun z => decide (rl G cg a g t b z = some true)) = cellATT P X G y y0 w g t := by
  have e1 : ∀ z, w z * inCell (rl G cg a g t b) z * dn (fun z => decide (rl G cg a g t b z = some true)) z = w z * isG G g z := fun z => by rw [mul_assoc, rl_true]
  unfold meanATT cellATT
  simp only [e1]
  congr 2
  funext z
  by_cases h : G z = (g : WithTop ℤ)
  · rw [hC.noAnticipation z b (by rw [h]; exact WithTop.coe_lt_coe.2 hC.base)]
    ring
  · simp [isG, h]

theorem cell_influence (z : 𝓧) : ∑ j, acoef (pmom P X (fun z => y z t - y z b) (fun z => w z * inCell (rl G cg a g t b) z)
      (fun z => decide (rl G cg a g t b z = some true)) x) j * ufun (fun z => y z t - y z b) (fun z => w z * inCell (rl G cg a g t b) z)
      (fun z => decide (rl G cg a g t b z = some true)) x β (cellATT P X G y y0 w g t) j z = cellInfluence P X G y y0 w cg a g t b x β z := by
  have h := influence_eq (y1 := fun z => y z t) (y0 := fun z => y z b) hX (cell_moments hX hC) (cell_trends hX hC) z
  rw [cell_target hX hC] at h
  rw [h]
  have e1 : ∀ z, w z * inCell (rl G cg a g t b) z * dn (fun z => decide (rl G cg a g t b z = some true)) z = w z * isG G g z := fun z => by rw [mul_assoc, rl_true]
  have e2 : ∀ z, w z * inCell (rl G cg a g t b) z * (1 - dn (fun z => decide (rl G cg a g t b z = some true)) z) = w z * isC G cg a g t b z := fun z => by
    rw [mul_assoc, rl_false]
  unfold influence cellInfluence
  simp only [e1, e2]

/-- Samples on which the cell is estimated. -/
def cellGood (G : 𝓧 → WithTop ℤ) (y : 𝓧 → ℤ → ℝ) (w : 𝓧 → ℝ) (cg : ControlGroup) (a g t b : ℤ) (x : 𝓧 → κ → ℝ) (X : ℕ → Ω → 𝓧) (n : ℕ) : Set Ω :=
  good (fun z => y z t - y z b) (fun z => w z * inCell (rl G cg a g t b) z) (fun z => decide (rl G cg a g t b z = some true)) x (isC G cg a g t b) X n

/-- Moments of the cell in the sample. -/
noncomputable def cmom (G : 𝓧 → WithTop ℤ) (y : 𝓧 → ℤ → ℝ) (w : 𝓧 → ℝ) (cg : ControlGroup) (a g t b : ℤ) (x : 𝓧 → κ → ℝ) (X : ℕ → Ω → 𝓧) (n : ℕ) (ω : Ω)
    (p : Option κ × Option (Option κ)) : ℝ :=
  avg X (ffun (fun z => y z t - y z b) (fun z => w z * inCell (rl G cg a g t b) z) (fun z => decide (rl G cg a g t b z = some true)) x p) n ω

theorem att_eq (n : ℕ) (ω : Ω) (hω : ω ∈ cellGood G y w cg a g t b x X n) :
    attEst G y w cg a g t b x X n ω = some (tcoef (cmom G y w cg a g t b x X n ω)) ∧
    ∀ i, attInf G y w cg a g t b x X n ω i = ∑ j, acoef (cmom G y w cg a g t b x X n ω) j *
      ufun (fun z => y z t - y z b) (fun z => w z * inCell (rl G cg a g t b) z) (fun z => decide (rl G cg a g t b z = some true)) x
        (bcoef (cmom G y w cg a g t b x X n ω)) (tcoef (cmom G y w cg a g t b x X n ω)) j (X i ω) := by
  obtain ⟨hn, h0, hdet, hc⟩ := hω
  have : Nonempty (Fin n) := ⟨⟨0, by omega⟩⟩
  have hF := avg_smom (fun z => y z t - y z b) (fun z => w z * inCell (rl G cg a g t b) z) (fun z => decide (rl G cg a g t b z = some true)) x X n ω
  have hF' : cmom G y w cg a g t b x X n ω = smom (fun i : Fin n => y (X i ω) t - y (X i ω) b)
      (fun i => w (X i ω) * inCell (fun i : Fin n => role cg (max t b + a) g (G (X i ω))) i) (fun i => decide (role cg (max t b + a) g (G (X i ω)) = some true))
      (fun i => x (X i ω)) := hF
  rw [count_avg _ _ isC_eq X n (by omega)] at hc
  obtain ⟨h1, h2⟩ := cell_array (fun i : Fin n => role cg (max t b + a) g (G (X i ω))) (fun i => y (X i ω) t) (fun i => y (X i ω) b) (fun i => w (X i ω))
    (fun i => x (X i ω)) (fun i => hC.nonneg _) (by rw [← hF']; exact h0) (by
      have hc' := Nat.cast_le.1 hc
      simp only [decide_eq_true_eq] at hc'
      exact hc')
  rw [← hF'] at h1 h2
  refine ⟨h1, fun i => ?_⟩
  unfold attInf
  rw [h2 i]
  refine Finset.sum_congr rfl fun j _ => ?_
  congr 1
  exact ufun_comp (fun z => y z t - y z b) (fun z => w z * inCell (rl G cg a g t b) z) (fun z => decide (rl G cg a g t b z = some true)) x (fun i : Fin n => X i ω) _ _ j i

/-- The influence function of the cell has sample mean zero. -/
theorem att_mean (n : ℕ) (ω : Ω) (hω : ω ∈ cellGood G y w cg a g t b x X n) : DR.mean (attInf G y w cg a g t b x X n ω) = 0 := by
  have h := tcoef_sub (cmom G y w cg a g t b x X n ω) hω.2.2.1 hω.2.1 (bcoef (cmom G y w cg a g t b x X n ω)) (tcoef (cmom G y w cg a g t b x X n ω))
  rw [sub_self] at h
  rw [funext (att_eq hX hC n ω hω).2]
  have h2 := mean_eq X (fun z => ∑ j, acoef (cmom G y w cg a g t b x X n ω) j *
      ufun (fun z => y z t - y z b) (fun z => w z * inCell (rl G cg a g t b) z) (fun z => decide (rl G cg a g t b z = some true)) x
        (bcoef (cmom G y w cg a g t b x X n ω)) (tcoef (cmom G y w cg a g t b x X n ω)) j z) n ω
  rw [h2, avg_sum, h]
  refine Finset.sum_congr rfl fun j _ => ?_
  congr 1
  exact avg_sum _ _ n ω

theorem cell_plugin : Plugin P X (fun n ω => (attEst G y w cg a g t b x X n ω).getD 0) (attInf G y w cg a g t b x X) (cellATT P X G y y0 w g t)
    (cellGood G y w cg a g t b x X)
    (ufun (fun z => y z t - y z b) (fun z => w z * inCell (rl G cg a g t b) z) (fun z => decide (rl G cg a g t b z = some true)) x β (cellATT P X G y y0 w g t))
    (fun n ω => acoef (cmom G y w cg a g t b x X n ω))
    (acoef (pmom P X (fun z => y z t - y z b) (fun z => w z * inCell (rl G cg a g t b) z) (fun z => decide (rl G cg a g t b z = some true)) x))
    (ffun (fun z => y z t - y z b) (fun z => w z * inCell (rl G cg a g t b) z) (fun z => decide (rl G cg a g t b z = some true)) x)
    (fun n ω p => acoef (cmom G y w cg a g t b x X n ω) p.1 * rcoef (bcoef (cmom G y w cg a g t b x X n ω)) (tcoef (cmom G y w cg a g t b x X n ω)) p.1 p.2)
    (fun p => acoef (pmom P X (fun z => y z t - y z b) (fun z => w z * inCell (rl G cg a g t b) z) (fun z => decide (rl G cg a g t b z = some true)) x) p.1 *
      rcoef β (cellATT P X G y y0 w g t) p.1 p.2) := by
  have h := plugin hX (cell_moments hX hC) (cell_trends hX hC) (isC G cg a g t b) (isC_sq hX hC) hC.others
    (fun n ω => (attEst G y w cg a g t b x X n ω).getD 0) (attInf G y w cg a g t b x X)
    (fun n ω hω => by rw [(att_eq hX hC n ω hω).1]; rfl) fun n ω hω => (att_eq hX hC n ω hω).2
  rw [cell_target hX hC] at h
  exact h

theorem cell_regular : Regular P X (fun n ω => (attEst G y w cg a g t b x X n ω).getD 0) (attInf G y w cg a g t b x X) (cellATT P X G y y0 w g t)
    (cellGood G y w cg a g t b x X) (cellInfluence P X G y y0 w cg a g t b x β) :=
  (cell_plugin hX hC).regular hX (cell_influence hX hC) (att_mean hX hC)

/-! ## C259 -/

/-- **C259 (consistency).**  With probability one the cell is estimated from some sample size on, the estimates tend to the effect of treatment on the cohort in
that period, and `√n` times the standard error tends to the standard deviation of the influence function. -/
theorem C259_limit : ∀ᵐ ω ∂P, ∃ att : ℕ → ℝ, (∀ᶠ n in atTop, attEst G y w cg a g t b x X n ω = some (att n)) ∧
    Tendsto att atTop (𝓝 (cellATT P X G y y0 w g t)) ∧
    Tendsto (fun n : ℕ => Real.sqrt n * plainSe (attInf G y w cg a g t b x X n ω)) atTop
      (𝓝 (Real.sqrt (pop P X fun z => cellInfluence P X G y y0 w cg a g t b x β z ^ 2))) := by
  have hp := cell_plugin hX hC
  filter_upwards [hp.consistent hX, hp.plain_se hX (att_mean hX hC), hp.Gev] with ω h1 h2 h3
  simp only [cell_influence hX hC] at h2
  refine ⟨_, ?_, h1, h2⟩
  filter_upwards [h3] with n hn
  rw [(att_eq hX hC n ω hn).1]
  rfl

/-- **C259 (coverage).**  The probability that the pointwise interval of the cell contains the effect tends to `1 - alpha`. -/
theorem C259_coverage (alpha : ℝ) (h0 : 0 < alpha) (h1 : alpha < 1) (hv : 0 < pop P X fun z => cellInfluence P X G y y0 w cg a g t b x β z ^ 2) :
    Tendsto (fun n => P.real {ω | ∃ att, attEst G y w cg a g t b x X n ω = some att ∧
      (Report.rowInterval (Report.zcrit alpha) att (plainSe (attInf G y w cg a g t b x X n ω))).1 ≤ cellATT P X G y y0 w g t ∧
      cellATT P X G y y0 w g t ≤ (Report.rowInterval (Report.zcrit alpha) att (plainSe (attInf G y w cg a g t b x X n ω))).2}) atTop (𝓝 (1 - alpha)) := by
  have hp := cell_plugin hX hC
  have hz : Phi (Report.zcrit alpha) = 1 - alpha / 2 := phi_ppf _ (by linarith) (by linarith)
  have hz0 : 0 ≤ Report.zcrit alpha := by
    by_contra hneg
    push Not at hneg
    have := phi_neg (Report.zcrit alpha)
    have hm : Phi (Report.zcrit alpha) ≤ Phi (-Report.zcrit alpha) := phi_mono (by linarith)
    linarith
  have e : 1 - alpha = Phi (Report.zcrit alpha) - Phi (-Report.zcrit alpha) := by rw [phi_neg, hz]; ring
  rw [e]
  refine hp.plain_coverage hX (att_mean hX hC) _ hz0 (by simpa only [cell_influence hX hC] using hv) _ fun n ω hω => ?_
  rw [Set.mem_ofPred_eq, (att_eq hX hC n ω hω).1]
  simp only [Option.some.injEq, exists_eq_left', Option.getD_some]
  rfl

/-- **C259 (violated: the standard error is replaced by NaN below a fixed tolerance).**  In every such population the reported standard error of the cell is NaN
from some sample size on. -/
theorem C259_tolerance_violated : ∀ᵐ ω ∂P, ∀ᶠ n in atTop, reportSe (plainSe (attInf G y w cg a g t b x X n ω)) = none :=
  (cell_plugin hX hC).tolerance hX (att_mean hX hC)

end

/-! ## A population: cohorts 2, 3 and never, three periods, a binary covariate that drives trends, weights and effects -/

abbrev Units := Fin 3 × Bool × Bool

def stG (z : Units) : WithTop ℤ := match z.1 with
  | 0 => ((2 : ℤ) : WithTop ℤ)
  | 1 => ((3 : ℤ) : WithTop ℤ)
  | 2 => ⊤

def stStart (k : Fin 3) : ℤ := match k with
  | 0 => 2
  | 1 => 3
  | 2 => 100

def stY0 (z : Units) (t : ℤ) : ℝ := 5 * num z.2.1 + t * (1 + 2 * num z.2.1 + (2 * num z.2.2 - 1))
def stEffect (z : Units) (t : ℤ) : ℝ := (3 + 2 * num z.2.1) * (t - stStart z.1 + 1)
noncomputable def stY (z : Units) (t : ℤ) : ℝ := if stG z ≤ (t : WithTop ℤ) then stY0 z t + stEffect z t else stY0 z t
def stW (z : Units) : ℝ := 1 + num z.2.1
def stX (z : Units) : Fin 2 → ℝ := ![1, num z.2.1]

theorem st_pop (f : Units → ℝ) : pop (draws Units) draw f =
    ((f (0, true, true) + f (0, true, false) + f (0, false, true) + f (0, false, false)) +
    (f (1, true, true) + f (1, true, false) + f (1, false, true) + f (1, false, false)) +
    (f (2, true, true) + f (2, true, false) + f (2, false, true) + f (2, false, false))) / 12 := by
  rw [draws_pop]
  simp only [Fintype.sum_prod_type, Fintype.sum_bool, Fintype.card_prod, Fintype.card_bool, Fin.sum_univ_three, Fintype.card_fin]
  norm_num
  ring

theorem st_isG (g : ℤ) (k : Fin 3) (p q : Bool) : isG stG g (k, p, q) = if stStart k = g ∧ stStart k ≠ 100 then 1 else 0 := by
  unfold isG
  congr 1
  fin_cases k <;> simp [stG, stStart]

theorem st_isC (g t b : ℤ) (k : Fin 3) (p q : Bool) :
    isC stG .notYetTreated 0 g t b (k, p, q) = if stStart k = 100 ∨ (stStart k ≠ g ∧ max t b < stStart k) then 1 else 0 := by
  unfold isC
  congr 1
  have h2 : ∀ s : ℤ, (t : WithTop ℤ) < s ∧ (b : WithTop ℤ) < s ↔ t < s ∧ b < s := fun s => by rw [WithTop.coe_lt_coe, WithTop.coe_lt_coe]
  have h3 := h2 3
  have h2 := h2 2
  fin_cases k
  · simpa [stG, stStart, IsComparison] using fun _ => h2
  · simpa [stG, stStart, IsComparison] using fun _ => h3
  · simp [stG, stStart, IsComparison]

/-- A post-treatment cell with the period before treatment as base. -/
theorem st_ok (g t : ℤ) (h : (g, t) ∈ [((2 : ℤ), (2 : ℤ)), (2, 3), (3, 3)]) :
    CellOK (draws Units) draw stG stY stY0 stW .notYetTreated 0 g t (g - 1) stX ![(t - (g - 1) : ℝ), 2 * (t - (g - 1) : ℝ)] := by
  refine ⟨fun z => ?_, fun z t' ht => ?_, by omega, fun A => Set.Finite.measurableSet (Set.toFinite _), fun _ => measurable_of_finite _, draws_sq _, draws_sq _,
    fun _ => draws_sq _, fun _ => draws_sq _, fun _ _ => draws_sq _, ?_, ?_, ?_, fun k => ?_, ?_, draws_int fun z => stW z * isG stG g z * (stY0 z t - stY0 z (g - 1))⟩
  · unfold stW num
    split_ifs <;> norm_num
  · have : ¬ stG z ≤ (t' : WithTop ℤ) := not_le.2 (by simpa using ht)
    simp [stY, this]
  all_goals
    simp only [List.mem_cons, Prod.mk.injEq, List.not_mem_nil, or_false] at h
  · rcases h with ⟨rfl, rfl⟩ | ⟨rfl, rfl⟩ | ⟨rfl, rfl⟩ <;> rw [st_pop] <;> simp only [st_isG, stStart] <;> norm_num [stW, num]
  · rcases h with ⟨rfl, rfl⟩ | ⟨rfl, rfl⟩ | ⟨rfl, rfl⟩ <;> rw [st_pop] <;> simp only [st_isC, stStart] <;> norm_num
  · rcases h with ⟨rfl, rfl⟩ | ⟨rfl, rfl⟩ | ⟨rfl, rfl⟩ <;> simp only [st_pop] <;> rw [Matrix.det_fin_two] <;> simp only [st_isC, stStart] <;>
      norm_num [stW, num, stX]
  · rcases h with ⟨rfl, rfl⟩ | ⟨rfl, rfl⟩ | ⟨rfl, rfl⟩ <;> rw [st_pop] <;> simp only [st_isC, stStart] <;>
      fin_cases k <;> norm_num [stW, num, stX, stY0, Fin.sum_univ_two]
  · rcases h with ⟨rfl, rfl⟩ | ⟨rfl, rfl⟩ | ⟨rfl, rfl⟩ <;> rw [st_pop] <;> simp only [st_isG, stStart] <;>
      norm_num [stW, num, stX, stY0, Fin.sum_univ_two]

theorem st_Y (z : Units) (g t : ℤ) : isG stG g z * (stY z t - stY0 z t) = isG stG g z * if g ≤ t then stEffect z t else 0 := by
  unfold isG
  by_cases h : stG z = (g : WithTop ℤ)
  · simp only [h, if_true, one_mul, stY, WithTop.coe_le_coe]
    split_ifs <;> ring
  · simp [h]

theorem st_att (g t : ℤ) (h : (g, t) ∈ [((2 : ℤ), (2 : ℤ)), (2, 3), (3, 3)]) :
    cellATT (draws Units) draw stG stY stY0 stW g t = 13 / 3 * (t - g + 1) := by
  unfold cellATT
  simp only [mul_assoc, st_Y]
  simp only [List.mem_cons, Prod.mk.injEq, List.not_mem_nil, or_false] at h
  rcases h with ⟨rfl, rfl⟩ | ⟨rfl, rfl⟩ | ⟨rfl, rfl⟩ <;> simp only [st_pop, st_isG, stStart, stEffect] <;> norm_num [stW, num]

theorem st_neg (g t : ℤ) (h : (g, t) ∈ [((2 : ℤ), (2 : ℤ)), (2, 3), (3, 3)]) :
    cellInfluence (draws Units) draw stG stY stY0 stW .notYetTreated 0 g t (g - 1) stX ![(t - (g - 1) : ℝ), 2 * (t - (g - 1) : ℝ)] (2, true, true) < 0 := by
  unfold cellInfluence
  simp only [List.mem_cons, Prod.mk.injEq, List.not_mem_nil, or_false] at h
  have hy : ∀ p q t, stY (2, p, q) t = stY0 (2, p, q) t := fun p q t => by simp [stY, stG]
  rcases h with ⟨rfl, rfl⟩ | ⟨rfl, rfl⟩ | ⟨rfl, rfl⟩ <;> simp only [st_pop, st_isG, st_isC, stStart, hy, Fin.sum_univ_two] <;>
    norm_num [stW, num, stX, stY0, minv, Matrix.inv_def, Matrix.adjugate_fin_two, Matrix.det_fin_two]

theorem st_sq (f : Units → ℝ) (h : f (2, true, true) < 0) : 0 < pop (draws Units) draw fun z => f z ^ 2 := by
  rw [st_pop]
  have := pow_pos (abs_pos.2 h.ne) 2
  rw [sq_abs] at this
  positivity

example : ∀ᵐ ω ∂draws Units, ∃ att : ℕ → ℝ, (∀ᶠ n in atTop, attEst stG stY stW .notYetTreated 0 2 3 1 stX draw n ω = some (att n)) ∧
    Tendsto att atTop (𝓝 (26 / 3)) := by
  have h := C259_limit draws_sampling (st_ok 2 3 (by simp))
  rw [st_att 2 3 (by simp)] at h
  filter_upwards [h] with ω ⟨a, h1, h2, _⟩
  refine ⟨a, h1, ?_⟩
  norm_num at h2
  exact h2

example : Tendsto (fun n => (draws Units).real {ω | ∃ att, attEst stG stY stW .notYetTreated 0 2 2 1 stX draw n ω = some att ∧
      (Report.rowInterval (Report.zcrit 0.05) att (plainSe (attInf stG stY stW .notYetTreated 0 2 2 1 stX draw n ω))).1 ≤ 13 / 3 ∧
      13 / 3 ≤ (Report.rowInterval (Report.zcrit 0.05) att (plainSe (attInf stG stY stW .notYetTreated 0 2 2 1 stX draw n ω))).2}) atTop (𝓝 (1 - 0.05)) := by
  have h := C259_coverage draws_sampling (st_ok 2 2 (by simp)) 0.05 (by norm_num) (by norm_num) (st_sq _ (st_neg 2 2 (by simp)))
  have e := st_att 2 2 (by simp)
  norm_num at e
  rw [e] at h
  norm_num at h ⊢
  exact h

example : ∀ᵐ ω ∂draws Units, ∀ᶠ n in atTop, reportSe (plainSe (attInf stG stY stW .notYetTreated 0 3 3 2 stX draw n ω)) = none := by
  simpa using C259_tolerance_violated draws_sampling (st_ok 3 3 (by simp))

end Verif.Asym
