import Verif.Asym.Aggte
import Verif.DR.NoCov

set_option linter.unusedSectionVars false
set_option linter.unusedSimpArgs false

/-!
# C264: `att_gt` without covariates by doubly robust estimation or weighting, in large samples
-/

namespace Verif.Asym

open MeasureTheory ProbabilityTheory Filter Topology Verif.Honest Verif.DR Verif.Prep

variable {Ω 𝓧 : Type*} [MeasurableSpace Ω] [MeasurableSpace 𝓧]

/-! ## Model -/

/-- `est_method`, `compute_att_gt.py:345-358`: `"dr"` (the default) and `"ipw"`. -/
inductive Meth | dr | ipw

/-- Clipping bounds and trimming level of the scores, `drdid_panel.py:40,114,272`, `std_ipw_did_panel.py:39,110,271` (1e-6, 1 - 1e-6 and 0.995). -/
structure Bounds where
  lo : ℝ
  hi : ℝ
  level : ℝ
  lo_pos : 0 < lo
  lo_le : lo ≤ hi
  hi_lt : hi < 1
  lo_lt : lo < level

/-- The values in the code. -/
noncomputable def Bounds.code : Bounds := ⟨1 / 10 ^ 6, 1 - 1 / 10 ^ 6, 995 / 1000, by norm_num, by norm_num, by norm_num, by norm_num⟩

/-- Design without covariates: a column of ones, `compute_att_gt.py:118-126`. -/
def ones {ι : Type*} (_ : ι) (_ : Unit) : ℝ := 1

/-- Logit on a constant: all scores are the treated share (the only constant solution of the likelihood equations, `DR.intercept_logit`),
`drdid_panel.py:256-268`. -/
noncomputable def shareLogit {ι : Type*} [Fintype ι] : Logit ι Unit ℝ := fun w d _ _ => treatedShare w d

section
variable {ι : Type*} [Fintype ι] (B : Bounds) (y1 y0 : ι → ℝ) (d : ι → Bool) (w0 : ι → ℝ)

/-- Estimate by `drdid_panel` or `std_ipw_did_panel`; `none` stands for an error or NaN. -/
noncomputable def twoEst : Meth → Option ℝ
  | .dr => match drdidPanel Ident.gramOLS shareLogit B.lo B.hi B.level y1 y0 d ones w0 with
    | .ok v => some v
    | _ => none
  | .ipw => match stdIpwDidPanel shareLogit B.lo B.hi B.level y1 y0 d ones w0 with
    | .ok (some v) => some v
    | _ => none

/-- Their influence functions with the fitted scores, regressions and matrices, `drdid_panel.py:209-234,295-345`, `std_ipw_did_panel.py:207-232,291-341`. -/
noncomputable def twoInf (m : Meth) : ι → ℝ :=
  let w := DR.normalize w0
  let dy := fun i => y1 i - y0 i
  let ps := clip B.lo B.hi (shareLogit w d ones)
  let tr := trim B.level d ps
  let H := gramInv (fun i => w i * (ps i * (1 - ps i))) ones
  match m with
  | .dr => drPanelIF d tr ps (fitted ones (Ident.gramOLS w (notB d) ones dy)) dy w ones (gramInv (fun i => w i * (1 - ind d i)) ones) H
  | .ipw => ipwPanelIF d tr ps dy w ones H

end

/-- Estimate of a panel cell, `compute_att_gt.py:168-204, 306-361`. -/
noncomputable def cellEstM {ι : Type*} [Fintype ι] (B : Bounds) (m : Meth) (s : ι → Option Bool) (y1 y0 w : ι → ℝ) : Option ℝ :=
  if (∃ i, s i = some true) ∧ ∃ i, s i = some false then
    twoEst B (fun i : Valid s => y1 i) (fun i => y0 i) (fun i => decide (s i = some true)) (fun i => w i) m
  else none

/-- Influence function of the cell, `compute_att_gt.py:360-361`. -/
noncomputable def cellInfM {ι : Type*} [Fintype ι] (B : Bounds) (m : Meth) (s : ι → Option Bool) (y1 y0 w : ι → ℝ) (i : ι) : ℝ :=
  if h : (s i).isSome = true then
    (Fintype.card ι : ℝ) / (Fintype.card (Valid s) : ℝ) *
      twoInf B (fun i : Valid s => y1 i) (fun i => y0 i) (fun i => decide (s i = some true)) (fun i => w i) m ⟨i, h⟩
  else 0

section
variable (B : Bounds) (m : Meth) (G : 𝓧 → WithTop ℤ) (y : 𝓧 → ℤ → ℝ) (w : 𝓧 → ℝ) (cg : ControlGroup) (a g t b : ℤ) (X : ℕ → Ω → 𝓧) (n : ℕ) (ω : Ω)

/-- Estimate of the cell from the first `n` units, `compute_att_gt.py:113-204`. -/
noncomputable def attEstM : Option ℝ :=
  cellEstM B m (fun i : Fin n => role cg (max t b + a) g (G (X i ω))) (fun i => y (X i ω) t) (fun i => y (X i ω) b) fun i => w (X i ω)

/-- Its influence function. -/
noncomputable def attInfM : Fin n → ℝ :=
  cellInfM B m (fun i : Fin n => role cg (max t b + a) g (G (X i ω))) (fun i => y (X i ω) t) (fun i => y (X i ω) b) fun i => w (X i ω)

/-- The table of cells that `aggte` receives, `att_gt.py`, as `cellTable`. -/
noncomputable def cellTableM (bs : ℤ × ℤ → ℤ) (D : List (ℤ × ℤ)) : List (Agg.Cell (Fin n) ℝ) :=
  D.filterMap fun c => (attEstM B m G y w cg a c.1 c.2 (bs c) X n ω).map fun v => ⟨c.1, c.2, v, attInfM B m G y w cg a c.1 c.2 (bs c) X n ω⟩

end

/-! ## Specification -/

/-- The cell can be estimated in the population: weight among the treated and the comparison units, and the share of the treated is below the trimming level. -/
structure CellDesign (P : Measure Ω) (X : ℕ → Ω → 𝓧) (G : 𝓧 → WithTop ℤ) (w : 𝓧 → ℝ) (level : ℝ) (cg : ControlGroup) (a g t b : ℤ) : Prop where
  nonneg : ∀ z, 0 ≤ w z
  measG : ∀ A : Set (WithTop ℤ), MeasurableSet (G ⁻¹' A)
  w1 : SqInt P X w
  cohort : 0 < pop P X fun z => w z * isG G g z
  others : 0 < pop P X fun z => w z * isC G cg a g t b z
  share : pop P X (fun z => w z * isG G g z) / (pop P X (fun z => w z * isG G g z) + pop P X fun z => w z * isC G cg a g t b z) < level

/-- Unconditional parallel trends between the base period and `t`, no anticipation; `y0` are the outcomes without treatment. -/
structure PlainTrends (P : Measure Ω) (X : ℕ → Ω → 𝓧) (G : 𝓧 → WithTop ℤ) (y y0 : 𝓧 → ℤ → ℝ) (w : 𝓧 → ℝ) (cg : ControlGroup) (a g t b : ℤ) : Prop where
  noAnticipation : ∀ z t', ((t' + a : ℤ) : WithTop ℤ) < G z → y z t' = y0 z t'
  base : b + a < g
  wy : SqInt P X fun z => w z * (y z t - y z b)
  int0 : Integrable (fun ω => w (X 0 ω) * isG G g (X 0 ω) * (y0 (X 0 ω) t - y0 (X 0 ω) b)) P
  parallel : pop P X (fun z => w z * isG G g z * (y0 z t - y0 z b)) / pop P X (fun z => w z * isG G g z) =
    pop P X (fun z => w z * isC G cg a g t b z * (y0 z t - y0 z b)) / pop P X fun z => w z * isC G cg a g t b z

/-- Mean change of the comparison units. -/
noncomputable def meanC (P : Measure Ω) (X : ℕ → Ω → 𝓧) (G : 𝓧 → WithTop ℤ) (y : 𝓧 → ℤ → ℝ) (w : 𝓧 → ℝ) (cg : ControlGroup) (a g t b : ℤ) : ℝ :=
  pop P X (fun z => w z * isC G cg a g t b z * (y z t - y z b)) / pop P X fun z => w z * isC G cg a g t b z

/-- Mean change of the cohort. -/
noncomputable def meanG (P : Measure Ω) (X : ℕ → Ω → 𝓧) (G : 𝓧 → WithTop ℤ) (y : 𝓧 → ℤ → ℝ) (w : 𝓧 → ℝ) (g t b : ℤ) : ℝ :=
  pop P X (fun z => w z * isG G g z * (y z t - y z b)) / pop P X fun z => w z * isG G g z

/-- Influence of a unit on the difference of the mean changes. -/
noncomputable def plainInfluence (P : Measure Ω) (X : ℕ → Ω → 𝓧) (G : 𝓧 → WithTop ℤ) (y : 𝓧 → ℤ → ℝ) (w : 𝓧 → ℝ) (cg : ControlGroup) (a g t b : ℤ) (z : 𝓧) : ℝ :=
  w z * isG G g z * (y z t - y z b - meanG P X G y w g t b) / pop P X (fun z => w z * isG G g z) -
    w z * isC G cg a g t b z * (y z t - y z b - meanC P X G y w cg a g t b) / pop P X fun z => w z * isC G cg a g t b z

/-! ## Samples -/

section
variable {ι : Type*} [Fintype ι] {B : Bounds} {y1 y0 : ι → ℝ} {d : ι → Bool} {w : ι → ℝ}

theorem ones_rank (hw : BothArms w d) : FullRank (DR.normalize w) (notB d) (ones (ι := ι)) := by
  intro v hv
  have h := hv ()
  simp only [ones, Finset.univ_unique, PUnit.default_eq_unit, Finset.sum_singleton, one_mul, mul_one, ← Finset.sum_mul] at h
  have hc := hw.norm.control.ne'
  have e : ∑ i with notB d i = true, DR.normalize w i = ∑ i with d i = false, DR.normalize w i := by
    apply Finset.sum_congr _ fun _ _ => rfl
    ext i; simp [notB]
  rw [e] at h
  funext k
  exact (mul_eq_zero.1 h).resolve_left hc

theorem mean_sel (sel : ι → Bool) (s : ι → ℝ) (hs : ∀ i, s i = if sel i = true then 1 else 0) (h : 0 < ∑ i with sel i = true, w i) : DR.mean (fun i => w i * s i) ≠ 0 := by
  have hne : Nonempty ι := by
    by_contra hn
    rw [not_nonempty_iff] at hn
    simp at h
  unfold DR.mean
  refine div_ne_zero ?_ (Nat.cast_ne_zero.2 Fintype.card_ne_zero)
  have : ∑ i, w i * s i = ∑ i with sel i = true, w i := by
    rw [Finset.sum_filter]
    exact Finset.sum_congr rfl fun i _ => by rw [hs i]; split_ifs <;> simp
  rw [this]
  exact h.ne'

/-- On samples with weight in both arms and the treated share below the trimming level, both methods return what the regression on a constant returns. -/
theorem two_eq (hw : BothArms w d) (hs : treatedShare w d < B.level) (m : Meth) :
    ∃ v, twoEst B y1 y0 d w m = some v ∧ regDidPanel Ident.gramOLS y1 y0 d ones w = .ok (some v) ∧
      ∀ i, twoInf B y1 y0 d w m i = regInf y1 y0 d ones w i := by
  have hols := (Ident.gramOLS_fits (DR.normalize w) (notB d) (ones (ι := ι)) (ones_rank hw)).solves fun i => y1 i - y0 i
  have hx : ∀ i : ι, ones i () = 1 := fun _ => rfl
  have hsc : ScoreEq (DR.normalize w) d (ones (ι := ι)) (shareLogit (DR.normalize w) d ones) := by
    intro k
    simp only [ones, mul_one, shareLogit, mul_sub, Finset.sum_sub_distrib, ← Finset.sum_mul, mul_ite, mul_zero]
    rw [treatedShare, mul_div_cancel₀ _ hw.norm.total.ne', Finset.sum_filter, sub_self]
  have hq : min B.hi (max B.lo (treatedShare w d)) < B.level := lt_of_le_of_lt (min_le_right _ _) (max_lt B.lo_lt hs)
  have hc1 : ∑ i with d i = false, DR.normalize w i = ∑ i with notB d i = true, DR.normalize w i := by
    apply Finset.sum_congr _ fun _ _ => rfl
    ext i; simp [notB]
  have hC : DR.mean (fun i => DR.normalize w i * (1 - ind d i)) ≠ 0 :=
    mean_sel (notB d) _ (fun i => by unfold notB ind; cases d i <;> simp) (hc1 ▸ hw.norm.control)
  have hps : clip B.lo B.hi (shareLogit (DR.normalize w) d (ones (ι := ι))) = fun _ => min B.hi (max B.lo (treatedShare w d)) := by
    funext i
    unfold clip shareLogit
    rw [share_normalize hw]
  have hfit : DR.NoCov.PanelFit (DR.normalize w) d (trim B.level d (clip B.lo B.hi (shareLogit (DR.normalize w) d (ones (ι := ι))))) (fun i => y1 i - y0 i) ones
      (Ident.gramOLS (DR.normalize w) (notB d) ones fun i => y1 i - y0 i) (clip B.lo B.hi (shareLogit (DR.normalize w) d (ones (ι := ι))))
      (min B.hi (max B.lo (treatedShare w d))) (gramInv (fun i => DR.normalize w i * (1 - ind d i)) ones) := by
    refine ⟨hx, mean_sel d _ (fun i => rfl) hw.norm.treated, hC, hols, fun i => by rw [hps], ?_, ?_, fun i => ?_, ?_⟩
    · exact (lt_min (B.lo_pos.trans_le B.lo_le) (B.lo_pos.trans_le (le_max_left _ _))).ne'
    · exact ((min_le_left _ _).trans_lt B.hi_lt).ne
    · unfold trim
      rw [hps]
      split_ifs
      · rfl
      · simpa using hq
    · intro k l
      simp only [ones, mul_one, Finset.univ_unique, Finset.sum_singleton, if_true, gramInv]
      rw [minv_eq]
      simp [Matrix.det_unique, Matrix.adjugate_subsingleton, mul_inv_cancel₀ hC]
  refine ⟨did2x2 w d y1 y0, ?_, C25_reg_no_covariates _ _ _ _ _ _ hx hw hols, fun i => ?_⟩
  · cases m with
    | dr =>
      unfold twoEst
      rw [C25_dr_no_covariates Ident.gramOLS shareLogit B.lo B.hi B.level y1 y0 d ones w B.lo_pos B.hi_lt hx hw B.lo_le hols ⟨_, rfl⟩ hsc hq]
    | ipw =>
      unfold twoEst
      rw [C25_ipw_no_covariates shareLogit B.lo B.hi B.level y1 y0 d ones w B.lo_pos B.hi_lt hx hw B.lo_le ⟨_, rfl⟩ hsc hq]
  · have hr : regInf y1 y0 d ones w i = _ := DR.NoCov.C263_reg hfit i
    rw [hr]
    cases m with
    | dr => exact DR.NoCov.C263_dr hfit _ i
    | ipw => exact DR.NoCov.C263_ipw hfit _ i

theorem valid_sum (s : ι → Option Bool) (f : ι → ℝ) : ∑ i : Valid s, f i = ∑ i, inCell s i * f i := by
  have h1 : ∑ i, inCell s i * f i = ∑ i with (s i).isSome = true, f i := by
    rw [Finset.sum_filter]
    refine Finset.sum_congr rfl fun i _ => ?_
    unfold inCell
    split_ifs <;> simp
  rw [h1]
  exact (Finset.sum_subtype _ (fun i => by simp) f).symm

end

section
variable {B : Bounds} {m : Meth} {G : 𝓧 → WithTop ℤ} {y : 𝓧 → ℤ → ℝ} {w : 𝓧 → ℝ} {cg : ControlGroup} {a g t b : ℤ} {X : ℕ → Ω → 𝓧} {n : ℕ} {ω : Ω}

/-- Samples with weight in both arms and the treated share below the trimming level. -/
def mGood (G : 𝓧 → WithTop ℤ) (w : 𝓧 → ℝ) (level : ℝ) (cg : ControlGroup) (a g t b : ℤ) (X : ℕ → Ω → 𝓧) (n : ℕ) : Set Ω :=
  {ω | 0 < avg X (fun z => w z * isG G g z) n ω ∧ 0 < avg X (fun z => w z * isC G cg a g t b z) n ω ∧
    avg X (fun z => w z * isG G g z) n ω < level * (avg X (fun z => w z * isG G g z) n ω + avg X (fun z => w z * isC G cg a g t b z) n ω)}

theorem attM_eq (hw : ∀ z, 0 ≤ w z) (h : ω ∈ mGood G w B.level cg a g t b X n) :
    attEstM B m G y w cg a g t b X n ω = attEst G y w cg a g t b (fun _ => ones ()) X n ω ∧
    attInfM B m G y w cg a g t b X n ω = attInf G y w cg a g t b (fun _ => ones ()) X n ω := by
  obtain ⟨hG, hC, hL⟩ := h
  have hn : 0 < n := by
    rcases Nat.eq_zero_or_pos n with rfl | h
    · simp [avg] at hG
    · exact h
  have hn' : (0 : ℝ) < n := by exact_mod_cast hn
  obtain ⟨s, hs⟩ : ∃ s : Fin n → Option Bool, s = fun i : Fin n => rl G cg a g t b (X i ω) := ⟨_, rfl⟩
  have hA : ∀ f : 𝓧 → ℝ, avg X f n ω = (∑ i : Fin n, f (X i ω)) / n := fun f => by rw [← mean_eq, DR.mean, Fintype.card_fin]
  rw [hA, hA] at hL
  rw [hA] at hG hC
  have hG' := (div_pos_iff_of_pos_right hn').1 hG
  have hC' := (div_pos_iff_of_pos_right hn').1 hC
  rw [← add_div, ← mul_div_assoc, div_lt_div_iff_of_pos_right hn'] at hL
  have eG : ∑ i : Valid s with decide (s i.1 = some true) = true, w (X i.1 ω) = ∑ i : Fin n, w (X i ω) * isG G g (X i ω) := by
    rw [Finset.sum_filter, valid_sum s fun i => if decide (s i = some true) = true then w (X i ω) else 0]
    refine Finset.sum_congr rfl fun i _ => ?_
    rw [← rl_true (cg := cg) (a := a) (t := t) (b := b)]
    simp only [inCell, dn, hs]
    split_ifs <;> ring
  have eC : ∑ i : Valid s with decide (s i.1 = some true) = false, w (X i.1 ω) = ∑ i : Fin n, w (X i ω) * isC G cg a g t b (X i ω) := by
    rw [Finset.sum_filter, valid_sum s fun i => if decide (s i = some true) = false then w (X i ω) else 0]
    refine Finset.sum_congr rfl fun i _ => ?_
    rw [← rl_false]
    simp only [inCell, dn, hs]
    by_cases h1 : rl G cg a g t b (X i ω) = some true <;> simp [h1, mul_comm]
  have hb : BothArms (fun i : Valid s => w (X i.1 ω)) fun i => decide (s i = some true) := ⟨fun i => hw _, by rw [eG]; exact hG', by rw [eC]; exact hC'⟩
  have hsh : treatedShare (fun i : Valid s => w (X i.1 ω)) (fun i => decide (s i = some true)) < B.level := by
    unfold treatedShare
    rw [sum_split (fun i : Valid s => decide (s i = some true)), eG, eC, div_lt_iff₀ (add_pos hG' hC')]
    exact hL
  obtain ⟨v, h1, h2, h3⟩ := two_eq (B := B) (y1 := fun i : Valid s => y (X i.1 ω) t) (y0 := fun i : Valid s => y (X i.1 ω) b) hb hsh m
  have hs' : (fun i : Fin n => role cg (max t b + a) g (G (X i ω))) = s := hs.symm
  have ht : (∃ i, s i = some true) ∧ ∃ i, s i = some false := by
    obtain ⟨i, hi⟩ := hb.exT
    obtain ⟨j, hj⟩ := hb.exC
    refine ⟨⟨i, by simpa using hi⟩, ⟨j, ?_⟩⟩
    have := j.2
    cases h : s j.1 with
    | none => simp [h] at this
    | some q => cases q <;> simp_all
  constructor
  · unfold attEstM attEst cellEstM cellEst
    rw [hs', if_pos ht, if_pos ht]
    exact h1.trans (by simp only [show (fun i : Valid s => (fun _ => ones ()) (X i.1 ω)) = (ones : Valid s → Unit → ℝ) from rfl, h2])
  · unfold attInfM attInf
    rw [hs']
    funext i
    unfold cellInfM cellInf
    split_ifs with hi
    · rw [h3]
      rfl
    · rfl

end

section
variable {P : Measure Ω} [IsProbabilityMeasure P] {X : ℕ → Ω → 𝓧} (hX : Sampling P X)
include hX

/-- Reports that agree on samples that occur with probability one from some size on are equally good. -/
theorem Inference.congr {rep rep' : (n : ℕ) → Ω → Option (ℝ × (Fin n → ℝ))} {θ : ℝ} {ψ : 𝓧 → ℝ} (h : Inference P X rep θ ψ) {H : ℕ → Set Ω}
    (hm : ∀ n, NullMeasurableSet (H n) P) (hev : ∀ᵐ ω ∂P, ∀ᶠ n in atTop, ω ∈ H n) (he : ∀ n, ∀ ω ∈ H n, rep' n ω = rep n ω) : Inference P X rep' θ ψ := by
  refine ⟨?_, fun alpha h0 h1 hv => ?_⟩
  · filter_upwards [h.limit, hev] with ω ⟨att, se, h1, h2, h3⟩ h4
    refine ⟨att, se, ?_, h2, h3⟩
    filter_upwards [h1, h4] with n ⟨psi, h5, h6⟩ h7
    exact ⟨psi, (he n ω h7).trans h5, h6⟩
  · exact prob_agree _ _ H hm hev (fun n ω hω => by rw [Set.mem_ofPred_eq, Set.mem_ofPred_eq, he n ω hω]) _ (h.coverage alpha h0 h1 hv)

variable {B : Bounds} {m : Meth} {G : 𝓧 → WithTop ℤ} {y y0 : 𝓧 → ℤ → ℝ} {w : 𝓧 → ℝ} {cg : ControlGroup} {a g t b : ℤ}

theorem isG_sq {level : ℝ} (h : CellDesign P X G w level cg a g t b) : SqInt P X fun z => w z * isG G g z := by
  refine h.w1.mul_le (hX.aemeas 0) ?_ fun z => by unfold isG; split_ifs <;> norm_num
  unfold isG
  exact Measurable.ite (h.measG {c | c = (g : WithTop ℤ)}) measurable_const measurable_const

theorem isC_meas {level : ℝ} (h : CellDesign P X G w level cg a g t b) : Measurable (isC G cg a g t b) := by
  unfold isC
  exact Measurable.ite (h.measG {c | c ≠ (g : WithTop ℤ) ∧ IsComparison cg (max t b + a) c}) measurable_const measurable_const

theorem wC_sq {level : ℝ} (h : CellDesign P X G w level cg a g t b) : SqInt P X fun z => w z * isC G cg a g t b z :=
  h.w1.mul_le (hX.aemeas 0) (isC_meas hX h) fun z => by unfold isC; split_ifs <;> norm_num

theorem mGood_null {level : ℝ} (h : CellDesign P X G w level cg a g t b) (n : ℕ) : NullMeasurableSet (mGood G w level cg a g t b X n) P := by
  have h1 := avg_aemeas hX (isG_sq hX h).1 n
  have h2 := avg_aemeas hX (wC_sq hX h).1 n
  exact (nullMeasurableSet_lt aemeasurable_const h1).inter ((nullMeasurableSet_lt aemeasurable_const h2).inter (nullMeasurableSet_lt h1 ((h1.add h2).const_mul level)))

theorem mGood_ev {level : ℝ} (h : CellDesign P X G w level cg a g t b) : ∀ᵐ ω ∂P, ∀ᶠ n in atTop, ω ∈ mGood G w level cg a g t b X n := by
  filter_upwards [lln2 hX (isG_sq hX h), lln2 hX (wC_sq hX h)] with ω h1 h2
  have h3 := h.share
  rw [div_lt_iff₀ (add_pos h.cohort h.others)] at h3
  filter_upwards [h1.eventually_const_lt h.cohort, h2.eventually_const_lt h.others, h1.eventually_lt ((h1.add h2).const_mul level) h3] with n a1 a2 a3
  exact ⟨a1, a2, a3⟩

theorem untreated_change (hT : PlainTrends P X G y y0 w cg a g t b) (z : 𝓧) : isC G cg a g t b z * (y z t - y z b) = isC G cg a g t b z * (y0 z t - y0 z b) := by
  by_cases h : isC G cg a g t b z = 0
  · rw [h, zero_mul, zero_mul]
  · have hlt := comparison_lt z h
    have : ∀ t', t' ≤ max t b → y z t' = y0 z t' := fun t' ht => hT.noAnticipation z t' (lt_of_le_of_lt (WithTop.coe_le_coe.2 (by omega)) hlt)
    rw [this t (le_max_left _ _), this b (le_max_right _ _)]

theorem meanC_eq (hT : PlainTrends P X G y y0 w cg a g t b) :
    meanC P X G y w cg a g t b = pop P X (fun z => w z * isC G cg a g t b z * (y0 z t - y0 z b)) / pop P X fun z => w z * isC G cg a g t b z := by
  unfold meanC
  congr 2
  funext z
  rw [mul_assoc, untreated_change hX hT, mul_assoc]

/-- Without covariates parallel trends are the conditional ones with a constant. -/
theorem plain_ok {level : ℝ} (h : CellDesign P X G w level cg a g t b) (hT : PlainTrends P X G y y0 w cg a g t b) :
    CellOK P X G y y0 w cg a g t b (fun _ => ones ()) fun _ => meanC P X G y w cg a g t b := by
  have hc2 := wC_sq hX h
  have hcy : SqInt P X fun z => w z * isC G cg a g t b z * (y0 z t - y0 z b) := by
    have := hT.wy.mul_le (hX.aemeas 0) (isC_meas hX h) fun z => by unfold isC; split_ifs <;> norm_num
    have e : (fun z => w z * (y z t - y z b) * isC G cg a g t b z) = fun z => w z * isC G cg a g t b z * (y0 z t - y0 z b) := by
      funext z
      rw [mul_assoc, mul_comm _ (isC G cg a g t b z), untreated_change hX hT, ← mul_assoc]
    rwa [e] at this
  have hmc : ∀ (f : 𝓧 → ℝ) (e : 𝓧 → ℝ) (c : ℝ), Integrable (fun ω => f (X 0 ω) * e (X 0 ω)) P → Integrable (fun ω => f (X 0 ω)) P →
      pop P X (fun z => f z * (e z - c)) = pop P X (fun z => f z * e z) - c * pop P X f := by
    intro f e c h1 h2
    unfold pop
    rw [← integral_const_mul]
    have j := integral_sub h1 (h2.const_mul c)
    rw [← j]
    congr 1
    funext ω
    ring
  refine ⟨h.nonneg, hT.noAnticipation, hT.base, h.measG, fun _ => measurable_const, h.w1, hT.wy, fun k => by simpa [ones] using h.w1,
    fun k => by simpa [ones] using hT.wy, fun k l => by simpa [ones] using h.w1, h.cohort, ?_, ?_, fun k => ?_, ?_, hT.int0⟩
  · have hnn : 0 ≤ᵐ[P] fun ω => isC G cg a g t b (X 0 ω) := ae_of_all _ fun ω => by
      show 0 ≤ isC G cg a g t b (X 0 ω)
      unfold isC; split_ifs <;> norm_num
    have hi : Integrable (fun ω => isC G cg a g t b (X 0 ω)) P :=
      Integrable.of_bound ((isC_meas hX h).comp_aemeasurable (hX.aemeas 0)).aestronglyMeasurable 1
        (ae_of_all _ fun ω => by unfold isC; split_ifs <;> norm_num)
    refine lt_of_le_of_ne (integral_nonneg_of_ae hnn) fun hz => ?_
    have h0 := (integral_eq_zero_iff_of_nonneg_ae hnn hi).1 hz.symm
    refine h.others.ne' ?_
    unfold pop
    rw [← integral_zero Ω ℝ]
    refine integral_congr_ae ?_
    filter_upwards [h0] with ω hω
    have : isC G cg a g t b (X 0 ω) = 0 := hω
    rw [this, mul_zero]
  · simp only [ones, mul_one, Matrix.det_unique, Matrix.of_apply]
    exact h.others.ne'
  · simp only [ones, mul_one, one_mul, Finset.univ_unique, Finset.sum_singleton]
    rw [hmc _ (fun z => y0 z t - y0 z b) _ (hcy.2.integrable (by norm_num)) (hc2.2.integrable (by norm_num)), meanC_eq hX hT, div_mul_cancel₀ _ h.others.ne', sub_self]
  · simp only [ones, mul_one, one_mul, Finset.univ_unique, Finset.sum_singleton]
    rw [hmc _ (fun z => y0 z t - y0 z b) _ hT.int0 ((isG_sq hX h).2.integrable (by norm_num)), meanC_eq hX hT, ← hT.parallel, div_mul_cancel₀ _ h.cohort.ne', sub_self]

/-- The limit is the difference of the mean changes. -/
theorem plain_att {level : ℝ} (h : CellDesign P X G w level cg a g t b) (hT : PlainTrends P X G y y0 w cg a g t b) :
    cellATT P X G y y0 w g t = meanG P X G y w g t b - meanC P X G y w cg a g t b := by
  have h1 : SqInt P X fun z => w z * isG G g z * (y z t - y z b) := by
    have := hT.wy.mul_le (hX.aemeas 0) (g := isG G g) (by
      unfold isG
      exact Measurable.ite (h.measG {c | c = (g : WithTop ℤ)}) measurable_const measurable_const) fun z => by unfold isG; split_ifs <;> norm_num
    have e : (fun z => w z * (y z t - y z b) * isG G g z) = fun z => w z * isG G g z * (y z t - y z b) := by
      funext z
      ring
    rwa [e] at this
  rw [meanC_eq hX hT, ← hT.parallel]
  unfold cellATT meanG
  rw [← sub_div]
  congr 1
  unfold pop
  rw [← integral_sub (h1.2.integrable (by norm_num)) hT.int0]
  congr 1
  funext ω
  dsimp only
  by_cases hg : G (X 0 ω) = (g : WithTop ℤ)
  · rw [hT.noAnticipation (X 0 ω) b (by rw [hg]; exact WithTop.coe_lt_coe.2 hT.base)]
    ring
  · simp [isG, hg]

/-! ## C264 -/

/-- **C264 (influence).**  The influence in the theorems below is that of the difference of the mean changes of the cohort and the comparison units. -/
theorem C264_influence {level : ℝ} (h : CellDesign P X G w level cg a g t b) (hT : PlainTrends P X G y y0 w cg a g t b) (z : 𝓧) :
    cellInfluence P X G y y0 w cg a g t b (fun _ => ones ()) (fun _ => meanC P X G y w cg a g t b) z = plainInfluence P X G y w cg a g t b z := by
  have hc := h.others.ne'
  have hg := h.cohort.ne'
  unfold cellInfluence plainInfluence
  rw [plain_att hX h hT]
  simp only [ones, mul_one, one_mul, Finset.univ_unique, Finset.sum_singleton, minv_eq, Matrix.det_unique, Matrix.adjugate_subsingleton, Matrix.of_apply, Matrix.one_apply_eq]
  generalize meanC P X G y w cg a g t b = c at *
  generalize meanG P X G y w g t b = e at *
  generalize (pop P X fun z => w z * isG G g z) = p at *
  generalize (pop P X fun z => w z * isC G cg a g t b z) = q at *
  field_simp
  ring

/-- **C264 (cells).**  Each cell of `att_gt(est_method="dr" or "ipw")` without covariates. -/
theorem C264_cell (h : CellDesign P X G w B.level cg a g t b) (hT : PlainTrends P X G y y0 w cg a g t b) :
    Inference P X (fun n ω => repOf (attEstM B m G y w cg a g t b X n ω) (attInfM B m G y w cg a g t b X n ω)) (cellATT P X G y y0 w g t)
      (plainInfluence P X G y w cg a g t b) := by
  have hC := plain_ok hX h hT
  have h1 := (cell_regular hX hC).inference hX (fun n ω => repOf (attEst G y w cg a g t b (fun _ => ones ()) X n ω) (attInf G y w cg a g t b (fun _ => ones ()) X n ω))
    fun n ω hω => by rw [(att_eq hX hC n ω hω).1]; rfl
  rw [funext (C264_influence hX h hT)] at h1
  exact h1.congr hX (mGood_null hX h) (mGood_ev hX h) fun n ω hω => by rw [(attM_eq h.nonneg hω).1, (attM_eq h.nonneg hω).2]

variable {bs : ℤ × ℤ → ℤ} {D : List (ℤ × ℤ)}

/-- The influence on a mean of cells. -/
noncomputable abbrev plainAgg (P : Measure Ω) (X : ℕ → Ω → 𝓧) (G : 𝓧 → WithTop ℤ) (y y0 : 𝓧 → ℤ → ℝ) (w : 𝓧 → ℝ) (cg : ControlGroup) (a : ℤ) (bs : ℤ × ℤ → ℤ)
    (L : List (ℤ × ℤ)) : 𝓧 → ℝ :=
  shareInfluence P X G w Prod.fst (fun c => cellATT P X G y y0 w c.1 c.2) (fun c => plainInfluence P X G y w cg a c.1 c.2 (bs c)) L

theorem agg_eq (hD : ∀ c ∈ D, CellDesign P X G w B.level cg a c.1 c.2 (bs c)) {L : List (ℤ × ℤ)} (hL : ∀ c ∈ L, c ∈ D ∧ PlainTrends P X G y y0 w cg a c.1 c.2 (bs c)) :
    aggInfluence P X G y y0 w cg a bs (fun _ _ => ones ()) (fun c _ => meanC P X G y w cg a c.1 c.2 (bs c)) L = plainAgg P X G y y0 w cg a bs L := by
  funext z
  unfold aggInfluence plainAgg shareInfluence
  have e : (L.map fun c => popShare P X G w c.1 * cellInfluence P X G y y0 w cg a c.1 c.2 (bs c) (fun _ => ones ()) (fun _ => meanC P X G y w cg a c.1 c.2 (bs c)) z) =
      L.map fun c => popShare P X G w c.1 * plainInfluence P X G y w cg a c.1 c.2 (bs c) z :=
    List.map_congr_left fun c hc => by rw [C264_influence hX (hD c (hL c hc).1) (hL c hc).2]
  rw [e]

theorem transfer (hD : ∀ c ∈ D, CellDesign P X G w B.level cg a c.1 c.2 (bs c)) {θ : ℝ} {ψ : 𝓧 → ℝ}
    {F : (n : ℕ) → Ω → List (Agg.Cell (Fin n) ℝ) → Option (ℝ × (Fin n → ℝ))}
    (h : Inference P X (fun n ω => F n ω (cellTable G y w cg a bs (fun _ _ => ones ()) D X n ω)) θ ψ) :
    Inference P X (fun n ω => F n ω (cellTableM B m G y w cg a X n ω bs D)) θ ψ := by
  refine h.congr hX (H := fun n => ⋂ k : Fin D.length, mGood G w B.level cg a D[k.1].1 D[k.1].2 (bs D[k.1]) X n)
    (fun n => NullMeasurableSet.iInter fun k => mGood_null hX (hD _ (List.getElem_mem k.2)) n) ?_ fun n ω hω => ?_
  · filter_upwards [ae_all_iff.2 fun k : Fin D.length => mGood_ev hX (hD _ (List.getElem_mem k.2))] with ω h
    filter_upwards [eventually_all.2 h] with n hn
    exact Set.mem_iInter.2 hn
  · have : cellTableM B m G y w cg a X n ω bs D = cellTable G y w cg a bs (fun _ _ => ones ()) D X n ω := by
      unfold cellTableM cellTable
      refine List.filterMap_congr fun c hc => ?_
      obtain ⟨k, hk, rfl⟩ := List.getElem_of_mem hc
      have hg := Set.mem_iInter.1 hω ⟨k, hk⟩
      rw [(attM_eq (hD _ hc).nonneg hg).1, (attM_eq (hD _ hc).nonneg hg).2]
    rw [this]

/-- **C264 (simple aggregation).** -/
theorem C264_simple (hD : ∀ c ∈ D, CellDesign P X G w B.level cg a c.1 c.2 (bs c)) (hC : ∀ c ∈ postCells D, PlainTrends P X G y y0 w cg a c.1 c.2 (bs c)) (hne : postCells D ≠ []) :
    Inference P X (fun n ω => repOf (Agg.simpleAgg (fun i : Fin n => G (X i ω)) (fun i => w (X i ω)) none (cellTableM B m G y w cg a X n ω bs D)).1
        (Agg.simpleAgg (fun i : Fin n => G (X i ω)) (fun i => w (X i ω)) none (cellTableM B m G y w cg a X n ω bs D)).2)
      (aggATT P X G y y0 w (postCells D)) (plainAgg P X G y y0 w cg a bs (postCells D)) := by
  have hs : ∀ c ∈ postCells D, c ∈ D := fun c hc => (List.mem_filter.1 hc).1
  rw [← agg_eq hX hD fun c hc => ⟨hs c hc, hC c hc⟩]
  exact transfer hX hD (F := fun n ω T => repOf (Agg.simpleAgg (fun i : Fin n => G (X i ω)) (fun i => w (X i ω)) none T).1
    (Agg.simpleAgg (fun i : Fin n => G (X i ω)) (fun i => w (X i ω)) none T).2) (C260_simple hX (fun c hc => plain_ok hX (hD c (hs c hc)) (hC c hc)) hne)

/-- **C264 (event time).** -/
theorem C264_event {e : ℤ} (hD : ∀ c ∈ D, CellDesign P X G w B.level cg a c.1 c.2 (bs c)) (hC : ∀ c ∈ eventCells D e, PlainTrends P X G y y0 w cg a c.1 c.2 (bs c))
    (hne : eventCells D e ≠ []) {minE maxE : Option ℤ} (hr : Agg.inRange minE maxE e) :
    Inference P X (fun n ω => rowOf (Agg.dynamicAgg (fun i : Fin n => G (X i ω)) (fun i => w (X i ω)) none minE maxE (cellTableM B m G y w cg a X n ω bs D)).effects e)
      (aggATT P X G y y0 w (eventCells D e)) (plainAgg P X G y y0 w cg a bs (eventCells D e)) := by
  have hs : ∀ c ∈ eventCells D e, c ∈ D := fun c hc => (List.mem_filter.1 hc).1
  rw [← agg_eq hX hD fun c hc => ⟨hs c hc, hC c hc⟩]
  exact transfer hX hD (F := fun n ω T => rowOf (Agg.dynamicAgg (fun i : Fin n => G (X i ω)) (fun i => w (X i ω)) none minE maxE T).effects e)
    (C260_event hX (fun c hc => plain_ok hX (hD c (hs c hc)) (hC c hc)) hne hr)

/-- **C264 (calendar period).** -/
theorem C264_period {t : ℤ} (hD : ∀ c ∈ D, CellDesign P X G w B.level cg a c.1 c.2 (bs c)) (hC : ∀ c ∈ periodCells D t, PlainTrends P X G y y0 w cg a c.1 c.2 (bs c))
    (hne : periodCells D t ≠ []) :
    Inference P X (fun n ω => rowOf (Agg.calendarAgg (fun i : Fin n => G (X i ω)) (fun i => w (X i ω)) (cellTableM B m G y w cg a X n ω bs D)).effects t)
      (aggATT P X G y y0 w (periodCells D t)) (plainAgg P X G y y0 w cg a bs (periodCells D t)) := by
  have hs : ∀ c ∈ periodCells D t, c ∈ D := fun c hc => (List.mem_filter.1 hc).1
  rw [← agg_eq hX hD fun c hc => ⟨hs c hc, hC c hc⟩]
  exact transfer hX hD (F := fun n ω T => rowOf (Agg.calendarAgg (fun i : Fin n => G (X i ω)) (fun i => w (X i ω)) T).effects t)
    (C260_period hX (fun c hc => plain_ok hX (hD c (hs c hc)) (hC c hc)) hne)

/-- **C264 (cohort).** -/
theorem C264_cohort {g : ℤ} (hD : ∀ c ∈ D, CellDesign P X G w B.level cg a c.1 c.2 (bs c)) (hC : ∀ c ∈ cohortCells D g, PlainTrends P X G y y0 w cg a c.1 c.2 (bs c))
    (hne : cohortCells D g ≠ []) :
    Inference P X (fun n ω => rowOf (Agg.groupAgg (fun i : Fin n => G (X i ω)) (fun i => w (X i ω)) none (cellTableM B m G y w cg a X n ω bs D)).effects g)
      (Agg.plainMean ((cohortCells D g).map fun c => cellATT P X G y y0 w c.1 c.2))
      fun z => Agg.plainMean ((cohortCells D g).map fun c => plainInfluence P X G y w cg a c.1 c.2 (bs c) z) := by
  have hs : ∀ c ∈ cohortCells D g, c ∈ D := fun c hc => (List.mem_filter.1 hc).1
  have h := C260_cohort (xs := fun _ _ => ones ()) (βs := fun c _ => meanC P X G y w cg a c.1 c.2 (bs c)) hX (fun c hc => plain_ok hX (hD c (hs c hc)) (hC c hc)) hne
  have e : (fun z => Agg.plainMean ((cohortCells D g).map fun c => cellInfluence P X G y y0 w cg a c.1 c.2 (bs c) (fun _ => ones ())
      (fun _ => meanC P X G y w cg a c.1 c.2 (bs c)) z)) = fun z => Agg.plainMean ((cohortCells D g).map fun c => plainInfluence P X G y w cg a c.1 c.2 (bs c) z) := by
    funext z
    rw [List.map_congr_left fun c hc => C264_influence hX (hD c (hs c hc)) (hC c hc) z]
  rw [← e]
  exact transfer hX hD (F := fun n ω T => rowOf (Agg.groupAgg (fun i : Fin n => G (X i ω)) (fun i => w (X i ω)) none T).effects g) h


/-- **C264 (dynamic aggregation, overall effect).** -/
theorem C264_dynamic (evs : List ℤ) {minE maxE : Option ℤ} (hev : evs.Pairwise (· < ·))
    (hmem : ∀ e, e ∈ evs ↔ 0 ≤ e ∧ (∃ c ∈ D, c.2 - c.1 = e) ∧ Agg.inRange minE maxE e) (hne : evs ≠ [])
    (hD : ∀ c ∈ D, CellDesign P X G w B.level cg a c.1 c.2 (bs c)) (hC : ∀ e ∈ evs, ∀ c ∈ eventCells D e, PlainTrends P X G y y0 w cg a c.1 c.2 (bs c)) :
    Inference P X (fun n ω => repOf (Agg.dynamicAgg (fun i : Fin n => G (X i ω)) (fun i => w (X i ω)) none minE maxE (cellTableM B m G y w cg a X n ω bs D)).overall
        (Agg.dynamicAgg (fun i : Fin n => G (X i ω)) (fun i => w (X i ω)) none minE maxE (cellTableM B m G y w cg a X n ω bs D)).overallPsi)
      (Agg.plainMean (evs.map fun e => aggATT P X G y y0 w (eventCells D e)))
      fun z => Agg.plainMean (evs.map fun e => plainAgg P X G y y0 w cg a bs (eventCells D e) z) := by
  have hs : ∀ e, ∀ c ∈ eventCells D e, c ∈ D := fun e c hc => (List.mem_filter.1 hc).1
  have h := C261_dynamic (xs := fun _ _ => ones ()) (βs := fun c _ => meanC P X G y w cg a c.1 c.2 (bs c)) hX evs hev hmem hne
    fun e he c hc => plain_ok hX (hD c (hs e c hc)) (hC e he c hc)
  have e : (fun z => Agg.plainMean (evs.map fun e => aggInfluence P X G y y0 w cg a bs (fun _ _ => ones ()) (fun c _ => meanC P X G y w cg a c.1 c.2 (bs c)) (eventCells D e) z)) =
      fun z => Agg.plainMean (evs.map fun e => plainAgg P X G y y0 w cg a bs (eventCells D e) z) := by
    funext z
    congr 1
    exact List.map_congr_left fun e he => congrFun (agg_eq hX hD fun c hc => ⟨hs e c hc, hC e he c hc⟩) z
  rw [← e]
  exact transfer hX hD (F := fun n ω T => repOf (Agg.dynamicAgg (fun i : Fin n => G (X i ω)) (fun i => w (X i ω)) none minE maxE T).overall
    (Agg.dynamicAgg (fun i : Fin n => G (X i ω)) (fun i => w (X i ω)) none minE maxE T).overallPsi) h

/-- **C264 (calendar aggregation, overall effect).** -/
theorem C264_calendar (ts : List ℤ) (hts : ts.Pairwise (· < ·)) (hmem : ∀ t, t ∈ ts ↔ ∃ c ∈ D, c.2 = t ∧ c.1 ≤ t) (hne : ts ≠ [])
    (hD : ∀ c ∈ D, CellDesign P X G w B.level cg a c.1 c.2 (bs c)) (hC : ∀ c ∈ postCells D, PlainTrends P X G y y0 w cg a c.1 c.2 (bs c)) :
    Inference P X (fun n ω => repOf (Agg.calendarAgg (fun i : Fin n => G (X i ω)) (fun i => w (X i ω)) (cellTableM B m G y w cg a X n ω bs D)).overall
        (Agg.calendarAgg (fun i : Fin n => G (X i ω)) (fun i => w (X i ω)) (cellTableM B m G y w cg a X n ω bs D)).overallPsi)
      (Agg.plainMean (ts.map fun t => aggATT P X G y y0 w (periodCells D t)))
      fun z => Agg.plainMean (ts.map fun t => plainAgg P X G y y0 w cg a bs (periodCells D t) z) := by
  have hs : ∀ c ∈ postCells D, c ∈ D := fun c hc => (List.mem_filter.1 hc).1
  have h := C261_calendar (xs := fun _ _ => ones ()) (βs := fun c _ => meanC P X G y w cg a c.1 c.2 (bs c)) hX ts hts hmem hne
    fun c hc => plain_ok hX (hD c (hs c hc)) (hC c hc)
  have e : (fun z => Agg.plainMean (ts.map fun t => aggInfluence P X G y y0 w cg a bs (fun _ _ => ones ()) (fun c _ => meanC P X G y w cg a c.1 c.2 (bs c)) (periodCells D t) z)) =
      fun z => Agg.plainMean (ts.map fun t => plainAgg P X G y y0 w cg a bs (periodCells D t) z) := by
    funext z
    congr 1
    refine List.map_congr_left fun t ht => congrFun (agg_eq hX hD fun c hc => ?_) z
    obtain ⟨hc, h⟩ := List.mem_filter.1 hc
    simp only [decide_eq_true_eq] at h
    exact ⟨hc, hC c (List.mem_filter.2 ⟨hc, by simp only [decide_eq_true_eq]; omega⟩)⟩
  rw [← e]
  exact transfer hX hD (F := fun n ω T => repOf (Agg.calendarAgg (fun i : Fin n => G (X i ω)) (fun i => w (X i ω)) T).overall
    (Agg.calendarAgg (fun i : Fin n => G (X i ω)) (fun i => w (X i ω)) T).overallPsi) h

/-- **C264 (group aggregation, overall effect).** -/
theorem C264_group (gs : List ℤ) (hgs : gs.Pairwise (· < ·)) (hmem : ∀ g, g ∈ gs ↔ ∃ c ∈ D, c.1 = g) (hne : gs ≠ []) (hpost : ∀ g ∈ gs, cohortCells D g ≠ [])
    (hD : ∀ c ∈ D, CellDesign P X G w B.level cg a c.1 c.2 (bs c)) (hC : ∀ c ∈ postCells D, PlainTrends P X G y y0 w cg a c.1 c.2 (bs c)) :
    Inference P X (fun n ω => repOf (Agg.groupAgg (fun i : Fin n => G (X i ω)) (fun i => w (X i ω)) none (cellTableM B m G y w cg a X n ω bs D)).overall
        (Agg.groupAgg (fun i : Fin n => G (X i ω)) (fun i => w (X i ω)) none (cellTableM B m G y w cg a X n ω bs D)).overallPsi)
      (shareMean P X G w id (fun g => Agg.plainMean ((cohortCells D g).map fun c => cellATT P X G y y0 w c.1 c.2)) gs)
      (shareInfluence P X G w id (fun g => Agg.plainMean ((cohortCells D g).map fun c => cellATT P X G y y0 w c.1 c.2))
        (fun g z => Agg.plainMean ((cohortCells D g).map fun c => plainInfluence P X G y w cg a c.1 c.2 (bs c) z)) gs) := by
  have hs : ∀ c ∈ postCells D, c ∈ D := fun c hc => (List.mem_filter.1 hc).1
  have h := C261_group (xs := fun _ _ => ones ()) (βs := fun c _ => meanC P X G y w cg a c.1 c.2 (bs c)) hX gs hgs hmem hne hpost
    fun c hc => plain_ok hX (hD c (hs c hc)) (hC c hc)
  have e : (fun (g : ℤ) z => Agg.plainMean ((cohortCells D g).map fun c => cellInfluence P X G y y0 w cg a c.1 c.2 (bs c) (fun _ => ones ())
      (fun _ => meanC P X G y w cg a c.1 c.2 (bs c)) z)) = fun g z => Agg.plainMean ((cohortCells D g).map fun c => plainInfluence P X G y w cg a c.1 c.2 (bs c) z) := by
    funext g z
    congr 1
    refine List.map_congr_left fun c hc => ?_
    obtain ⟨hc, h⟩ := List.mem_filter.1 hc
    simp only [decide_eq_true_eq] at h
    exact C264_influence hX (hD c hc) (hC c (List.mem_filter.2 ⟨hc, by simp only [decide_eq_true_eq]; omega⟩)) z
  rw [← e]
  exact transfer hX hD (F := fun n ω T => repOf (Agg.groupAgg (fun i : Fin n => G (X i ω)) (fun i => w (X i ω)) none T).overall
    (Agg.groupAgg (fun i : Fin n => G (X i ω)) (fun i => w (X i ω)) none T).overallPsi) h

end

/-! ## The two-period estimators -/

/-- What a user gets from `drdid_panel` / `std_ipw_did_panel` without covariates on the first `n` units, `drdid_panel.py:154-157`, `std_ipw_did_panel.py:156-159`. -/
noncomputable def twoReport (B : Bounds) (m : Meth) (y1 y0 w : 𝓧 → ℝ) (d : 𝓧 → Bool) (X : ℕ → Ω → 𝓧) (n : ℕ) (ω : Ω) : Option (ℝ × ℝ × (ℝ × ℝ)) :=
  (twoEst B (fun i : Fin n => y1 (X i ω)) (fun i => y0 (X i ω)) (fun i => d (X i ω)) (fun i => w (X i ω)) m).map fun att =>
    let se := analyticSe (twoInf B (fun i : Fin n => y1 (X i ω)) (fun i => y0 (X i ω)) (fun i => d (X i ω)) (fun i => w (X i ω)) m)
    (att, se, Report.didInterval att se)

/-- Samples with weight in both arms and the treated share below the trimming level. -/
def tGood (w : 𝓧 → ℝ) (d : 𝓧 → Bool) (level : ℝ) (X : ℕ → Ω → 𝓧) (n : ℕ) : Set Ω :=
  {ω | 0 < avg X (fun z => w z * dn d z) n ω ∧ 0 < avg X (fun z => w z * (1 - dn d z)) n ω ∧ avg X (fun z => w z * dn d z) n ω < level * avg X w n ω}

omit [MeasurableSpace Ω] [MeasurableSpace 𝓧] in
theorem twoReport_eq {B : Bounds} {m : Meth} {y1 y0 w : 𝓧 → ℝ} {d : 𝓧 → Bool} {X : ℕ → Ω → 𝓧} {n : ℕ} {ω : Ω} (hw : ∀ z, 0 ≤ w z) (h : ω ∈ tGood w d B.level X n) :
    twoReport B m y1 y0 w d X n ω = regReport y1 y0 w d (fun _ => ones ()) X n ω := by
  obtain ⟨h1, h2, h3⟩ := h
  have hn : 0 < n := by
    rcases Nat.eq_zero_or_pos n with rfl | h
    · simp [avg] at h1
    · exact h
  have hn' : (0 : ℝ) < n := by exact_mod_cast hn
  have hA : ∀ f : 𝓧 → ℝ, avg X f n ω = (∑ i : Fin n, f (X i ω)) / n := fun f => by
    unfold avg
    rw [Finset.sum_range]
  rw [hA] at h1 h2
  rw [hA, hA, ← mul_div_assoc, div_lt_div_iff_of_pos_right hn'] at h3
  have h1' := (div_pos_iff_of_pos_right hn').1 h1
  have h2' := (div_pos_iff_of_pos_right hn').1 h2
  have e1 : ∑ i : Fin n with d (X i.1 ω) = true, w (X i ω) = ∑ i : Fin n, w (X i ω) * dn d (X i ω) := by
    rw [Finset.sum_filter]
    refine Finset.sum_congr rfl fun i _ => ?_
    unfold dn
    split_ifs <;> simp
  have e2 : ∑ i : Fin n with d (X i.1 ω) = false, w (X i ω) = ∑ i : Fin n, w (X i ω) * (1 - dn d (X i ω)) := by
    rw [Finset.sum_filter]
    refine Finset.sum_congr rfl fun i _ => ?_
    unfold dn
    cases d (X i ω) <;> simp
  have hb : BothArms (fun i : Fin n => w (X i ω)) fun i => d (X i ω) := ⟨fun i => hw _, by rw [e1]; exact h1', by rw [e2]; exact h2'⟩
  obtain ⟨v, k1, k2, k3⟩ := two_eq (B := B) (y1 := fun i : Fin n => y1 (X i ω)) (y0 := fun i : Fin n => y0 (X i ω)) hb (by
    unfold treatedShare
    rw [e1, div_lt_iff₀ hb.total]
    exact h3) m
  unfold twoReport regReport
  have k2' : regDidPanel Ident.gramOLS (fun i : Fin n => y1 (X i ω)) (fun i => y0 (X i ω)) (fun i => d (X i ω)) (fun i => (fun _ => ones ()) (X i ω)) (fun i => w (X i ω)) =
    .ok (some v) := k2
  rw [k1, k2', Option.map_some, funext k3]
  rfl

section
variable {P : Measure Ω} [IsProbabilityMeasure P] {X : ℕ → Ω → 𝓧} (hX : Sampling P X) {y1 y0 w dy0 : 𝓧 → ℝ} {d : 𝓧 → Bool} {μ : ℝ} {B : Bounds} {m : Meth}
  (hM : Moments P X (fun z => y1 z - y0 z) w d fun _ => ones ()) (hT : Trends P X (fun z => y1 z - y0 z) dy0 w d (fun _ => ones ()) fun _ => μ)
  (hs : pop P X (fun z => w z * dn d z) / pop P X w < B.level)
include hX hM hT hs

theorem tGood_ok : (∀ n, NullMeasurableSet (tGood w d B.level X n) P) ∧ ∀ᵐ ω ∂P, ∀ᶠ n in atTop, ω ∈ tGood w d B.level X n := by
  have hd := dn_measurable hM.meas_d
  have s1 : SqInt P X fun z => w z * dn d z := hM.w1.mul_le (hX.aemeas 0) hd fun z => by unfold dn; split_ifs <;> norm_num
  have s2 : SqInt P X fun z => w z * (1 - dn d z) := hM.w1.mul_le (hX.aemeas 0) (measurable_const.sub hd) fun z => by unfold dn; split_ifs <;> norm_num
  have hc : 0 < pop P X fun z => w z * (1 - dn d z) := by
    have h1 := hT.rank
    simp only [ones, mul_one, Matrix.det_unique, Matrix.of_apply] at h1
    refine lt_of_le_of_ne ?_ h1.symm
    exact integral_nonneg fun ω => mul_nonneg (hT.nonneg _) (by have := dn_01 d (X 0 ω); linarith)
  have hw : pop P X w = pop P X (fun z => w z * dn d z) + pop P X fun z => w z * (1 - dn d z) := by
    unfold pop
    rw [← integral_add (s1.2.integrable (by norm_num)) (s2.2.integrable (by norm_num))]
    congr 1
    funext ω
    ring
  have hwp : 0 < pop P X w := by rw [hw]; exact add_pos hT.treated hc
  constructor
  · intro n
    have h1 := avg_aemeas hX s1.1 n
    have h2 := avg_aemeas hX s2.1 n
    have h3 := avg_aemeas hX hM.w1.1 n
    exact (nullMeasurableSet_lt aemeasurable_const h1).inter ((nullMeasurableSet_lt aemeasurable_const h2).inter (nullMeasurableSet_lt h1 (h3.const_mul B.level)))
  · filter_upwards [lln2 hX s1, lln2 hX s2, lln2 hX hM.w1] with ω h1 h2 h3
    rw [div_lt_iff₀ hwp] at hs
    filter_upwards [h1.eventually_const_lt hT.treated, h2.eventually_const_lt hc, h1.eventually_lt (h3.const_mul B.level) hs] with n a1 a2 a3
    exact ⟨a1, a2, a3⟩

/-- **C264 (two periods, consistency).** -/
theorem C264_two_period_limit : ∀ᵐ ω ∂P, ∃ att se : ℕ → ℝ, (∀ᶠ n in atTop, ∃ ci, twoReport B m y1 y0 w d X n ω = some (att n, se n, ci)) ∧
    Tendsto att atTop (𝓝 (meanATT P X (fun z => y1 z - y0 z) dy0 w d)) ∧
    Tendsto (fun n : ℕ => Real.sqrt n * se n) atTop (𝓝 (Real.sqrt (pop P X fun z =>
      influence P X (fun z => y1 z - y0 z) w d (fun _ => ones ()) (fun _ => μ) (meanATT P X (fun z => y1 z - y0 z) dy0 w d) z ^ 2))) := by
  filter_upwards [C258_limit hX hM hT, (tGood_ok hX hM hT hs).2] with ω ⟨att, se, h1, h2, h3⟩ hg
  refine ⟨att, se, ?_, h2, h3⟩
  filter_upwards [h1, hg] with n ⟨ci, h4⟩ h5
  exact ⟨ci, (twoReport_eq hT.nonneg h5).trans h4⟩

/-- **C264 (two periods, coverage).** -/
theorem C264_two_period_coverage (hv : 0 < pop P X fun z =>
      influence P X (fun z => y1 z - y0 z) w d (fun _ => ones ()) (fun _ => μ) (meanATT P X (fun z => y1 z - y0 z) dy0 w d) z ^ 2) :
    ∃ p : ℝ, Tendsto (fun n => P.real {ω | ∃ att se lo hi, twoReport B m y1 y0 w d X n ω = some (att, se, (lo, hi)) ∧
      lo ≤ meanATT P X (fun z => y1 z - y0 z) dy0 w d ∧ meanATT P X (fun z => y1 z - y0 z) dy0 w d ≤ hi}) atTop (𝓝 p) ∧ 950 / 1000 < p ∧ p < 95002 / 100000 := by
  obtain ⟨p, h1, h2, h3⟩ := C258_coverage hX hM hT hv
  refine ⟨p, ?_, h2, h3⟩
  have hg := tGood_ok hX hM hT hs
  exact prob_agree _ _ _ hg.1 hg.2 (fun n ω hω => by rw [Set.mem_ofPred_eq, Set.mem_ofPred_eq, twoReport_eq hT.nonneg hω]) _ h1

end

/-! ## The staggered population, without its covariate -/

theorem st_design (c : ℤ × ℤ) (hc : c ∈ stCells) : CellDesign (draws Units) draw stG stW Bounds.code.level .notYetTreated 0 c.1 c.2 (stB c) := by
  simp only [stCells, List.mem_cons, List.not_mem_nil, or_false] at hc
  refine ⟨fun z => ?_, fun A => Set.Finite.measurableSet (Set.toFinite _), draws_sq _, ?_, ?_, ?_⟩
  · unfold stW num
    split_ifs <;> norm_num
  all_goals
    rcases hc with rfl | rfl | rfl | rfl <;> simp only [st_pop, st_isG, st_isC, stStart, stB] <;> norm_num [stW, num, Bounds.code]

theorem st_plain (c : ℤ × ℤ) (hc : c ∈ stCells) (hp : c.1 ≤ c.2) : PlainTrends (draws Units) draw stG stY stY0 stW .notYetTreated 0 c.1 c.2 (stB c) := by
  have h := st_mem c hc hp
  obtain ⟨g, t⟩ := c
  simp only [List.mem_cons, Prod.mk.injEq, List.not_mem_nil, or_false] at h
  refine ⟨fun z t' ht => ?_, by simp only [stB]; omega, draws_sq _, draws_int fun z => stW z * isG stG g z * (stY0 z t - stY0 z (stB (g, t))), ?_⟩
  · have : ¬ stG z ≤ (t' : WithTop ℤ) := not_le.2 (by simpa using ht)
    simp [stY, this]
  · rcases h with ⟨rfl, rfl⟩ | ⟨rfl, rfl⟩ | ⟨rfl, rfl⟩ <;> simp only [st_pop, st_isG, st_isC, stStart, stB] <;> norm_num [stW, num, stY0]

theorem st_plain_neg (c : ℤ × ℤ) (hc : c ∈ stCells) (hp : c.1 ≤ c.2) : plainInfluence (draws Units) draw stG stY stW .notYetTreated 0 c.1 c.2 (stB c) (2, true, true) < 0 := by
  have h := st_mem c hc hp
  obtain ⟨g, t⟩ := c
  simp only [List.mem_cons, Prod.mk.injEq, List.not_mem_nil, or_false] at h
  have hy : ∀ p q t, stY (2, p, q) t = stY0 (2, p, q) t := fun p q t => by simp [stY, stG]
  have hy1 : ∀ p q, stY (1, p, q) 2 = stY0 (1, p, q) 2 := fun p q => by
    have : ¬ (3 : WithTop ℤ) ≤ 2 := by decide
    simp [stY, stG, this]
  have hy2 : ∀ p q, stY (1, p, q) 1 = stY0 (1, p, q) 1 := fun p q => by
    have : ¬ (3 : WithTop ℤ) ≤ 1 := by decide
    simp [stY, stG, this]
  unfold plainInfluence meanG meanC
  rcases h with ⟨rfl, rfl⟩ | ⟨rfl, rfl⟩ | ⟨rfl, rfl⟩ <;> simp only [st_pop, st_isG, st_isC, stStart, stB, hy] <;> norm_num [stW, num, stY0, hy1, hy2]

theorem st_plains (L : List (ℤ × ℤ)) (h : ∀ c ∈ L, c ∈ stCells ∧ c.1 ≤ c.2) : ∀ c ∈ L, PlainTrends (draws Units) draw stG stY stY0 stW .notYetTreated 0 c.1 c.2 (stB c) :=
  fun c hc => st_plain c (h c hc).1 (h c hc).2

example : ∀ z, cellInfluence (draws Units) draw stG stY stY0 stW .notYetTreated 0 2 3 (stB (2, 3)) (fun _ => ones ())
    (fun _ => meanC (draws Units) draw stG stY stW .notYetTreated 0 2 3 (stB (2, 3))) z = plainInfluence (draws Units) draw stG stY stW .notYetTreated 0 2 3 (stB (2, 3)) z :=
  C264_influence draws_sampling (st_design (2, 3) (by decide)) (st_plain (2, 3) (by decide) (by decide))

/-- A cell: limit 26/3, positive variance. -/
example (m : Meth) : Inference (draws Units) draw (fun n ω => repOf (attEstM .code m stG stY stW .notYetTreated 0 2 3 (stB (2, 3)) draw n ω)
      (attInfM .code m stG stY stW .notYetTreated 0 2 3 (stB (2, 3)) draw n ω)) (26 / 3) (plainInfluence (draws Units) draw stG stY stW .notYetTreated 0 2 3 (stB (2, 3))) ∧
    0 < pop (draws Units) draw fun z => plainInfluence (draws Units) draw stG stY stW .notYetTreated 0 2 3 (stB (2, 3)) z ^ 2 := by
  have h := C264_cell (m := m) draws_sampling (st_design (2, 3) (by decide)) (st_plain (2, 3) (by decide) (by decide))
  have e := st_att 2 3 (by simp)
  norm_num at e
  simp only [e] at h
  exact ⟨h, st_sq _ (st_plain_neg (2, 3) (by decide) (by decide))⟩

example (m : Meth) : Inference (draws Units) draw (fun n ω => repOf (Agg.simpleAgg (fun i : Fin n => stG (draw i ω)) (fun i => stW (draw i ω)) none
      (cellTableM .code m stG stY stW .notYetTreated 0 draw n ω stB stCells)).1 (Agg.simpleAgg (fun i : Fin n => stG (draw i ω)) (fun i => stW (draw i ω)) none
      (cellTableM .code m stG stY stW .notYetTreated 0 draw n ω stB stCells)).2) (52 / 9)
      (plainAgg (draws Units) draw stG stY stY0 stW .notYetTreated 0 stB (postCells stCells)) :=
  st_values.1 ▸ C264_simple draws_sampling st_design (st_plains _ (by decide)) (by decide)

example (m : Meth) : Inference (draws Units) draw (fun n ω => rowOf (Agg.dynamicAgg (fun i : Fin n => stG (draw i ω)) (fun i => stW (draw i ω)) none (some (-1)) none
      (cellTableM .code m stG stY stW .notYetTreated 0 draw n ω stB stCells)).effects 0) (13 / 3)
      (plainAgg (draws Units) draw stG stY stY0 stW .notYetTreated 0 stB (eventCells stCells 0)) :=
  st_values.2 ▸ C264_event draws_sampling st_design (st_plains _ (by decide)) (by decide) (by simp [Agg.inRange])

example (m : Meth) : Inference (draws Units) draw (fun n ω => rowOf (Agg.calendarAgg (fun i : Fin n => stG (draw i ω)) (fun i => stW (draw i ω))
      (cellTableM .code m stG stY stW .notYetTreated 0 draw n ω stB stCells)).effects 3) (13 / 2)
      (plainAgg (draws Units) draw stG stY stY0 stW .notYetTreated 0 stB (periodCells stCells 3)) :=
  st_periods.2.1 ▸ C264_period draws_sampling st_design (st_plains _ (by decide)) (by decide)

example (m : Meth) : Inference (draws Units) draw (fun n ω => rowOf (Agg.groupAgg (fun i : Fin n => stG (draw i ω)) (fun i => stW (draw i ω)) none
      (cellTableM .code m stG stY stW .notYetTreated 0 draw n ω stB stCells)).effects 2) (13 / 2)
      (fun z => Agg.plainMean ((cohortCells stCells 2).map fun c => plainInfluence (draws Units) draw stG stY stW .notYetTreated 0 c.1 c.2 (stB c) z)) :=
  st_cohorts.1 ▸ C264_cohort draws_sampling st_design (st_plains _ (by decide)) (by decide)

example (m : Meth) : ∃ ψ, Inference (draws Units) draw (fun n ω => repOf (Agg.dynamicAgg (fun i : Fin n => stG (draw i ω)) (fun i => stW (draw i ω)) none none none
        (cellTableM .code m stG stY stW .notYetTreated 0 draw n ω stB stCells)).overall (Agg.dynamicAgg (fun i : Fin n => stG (draw i ω)) (fun i => stW (draw i ω)) none none none
        (cellTableM .code m stG stY stW .notYetTreated 0 draw n ω stB stCells)).overallPsi) (13 / 2) ψ := by
  have hv : Agg.plainMean ([0, 1].map fun e => aggATT (draws Units) draw stG stY stY0 stW (eventCells stCells e)) = 13 / 2 := by
    simp only [List.map_cons, List.map_nil, st_values.2, st_periods.2.2]
    norm_num [Agg.plainMean]
  refine ⟨_, hv ▸ C264_dynamic draws_sampling [0, 1] (by decide) (fun e => ?_) (by decide) st_design fun e he => st_plains _ ?_⟩
  · simp only [stCells, Agg.inRange, List.mem_cons, List.not_mem_nil, or_false, exists_eq_or_imp, exists_eq_left]
    simp
    omega
  · revert e
    decide

example (m : Meth) : ∃ ψ, Inference (draws Units) draw (fun n ω => repOf (Agg.calendarAgg (fun i : Fin n => stG (draw i ω)) (fun i => stW (draw i ω))
        (cellTableM .code m stG stY stW .notYetTreated 0 draw n ω stB stCells)).overall (Agg.calendarAgg (fun i : Fin n => stG (draw i ω)) (fun i => stW (draw i ω))
        (cellTableM .code m stG stY stW .notYetTreated 0 draw n ω stB stCells)).overallPsi) (65 / 12) ψ := by
  have hv : Agg.plainMean ([2, 3].map fun t => aggATT (draws Units) draw stG stY stY0 stW (periodCells stCells t)) = 65 / 12 := by
    simp only [List.map_cons, List.map_nil, st_periods.1, st_periods.2.1]
    norm_num [Agg.plainMean]
  refine ⟨_, hv ▸ C264_calendar draws_sampling [2, 3] (by decide) (fun e => ?_) (by decide) st_design (st_plains _ (by decide))⟩
  simp only [stCells, List.mem_cons, List.not_mem_nil, or_false, exists_eq_or_imp, exists_eq_left]
  omega

example (m : Meth) : ∃ ψ, Inference (draws Units) draw (fun n ω => repOf (Agg.groupAgg (fun i : Fin n => stG (draw i ω)) (fun i => stW (draw i ω)) none
        (cellTableM .code m stG stY stW .notYetTreated 0 draw n ω stB stCells)).overall (Agg.groupAgg (fun i : Fin n => stG (draw i ω)) (fun i => stW (draw i ω)) none
        (cellTableM .code m stG stY stW .notYetTreated 0 draw n ω stB stCells)).overallPsi) (65 / 12) ψ := by
  have hv : shareMean (draws Units) draw stG stW id (fun g => Agg.plainMean ((cohortCells stCells g).map fun c => cellATT (draws Units) draw stG stY stY0 stW c.1 c.2)) [2, 3] =
      65 / 12 := by
    unfold shareMean
    simp only [List.map_cons, List.map_nil, st_cohorts.1, st_cohorts.2, id, st_share 2 (.inl rfl), st_share 3 (.inr rfl)]
    norm_num
  refine ⟨_, hv ▸ C264_group draws_sampling [2, 3] (by decide) (fun g => ?_) (by decide) (by decide) st_design (st_plains _ (by decide))⟩
  simp only [stCells, List.mem_cons, List.not_mem_nil, or_false, exists_eq_or_imp, exists_eq_left]
  omega

theorem ex_plain : Moments (draws Coins) draw (fun z => exY1 z - exY0 z) exW (fun z => z.1) (fun _ => ones ()) ∧
    Trends (draws Coins) draw (fun z => exY1 z - exY0 z) exD0 exW (fun z => z.1) (fun _ => ones ()) (fun _ => 7 / 3) ∧
    pop (draws Coins) draw (fun z => exW z * dn (fun z => z.1) z) / pop (draws Coins) draw exW < Bounds.code.level := by
  refine ⟨⟨measurable_of_finite _, fun _ => measurable_of_finite _, draws_sq _, draws_sq _, fun _ => draws_sq _, fun _ => draws_sq _, fun _ _ => draws_sq _⟩,
    ⟨fun z => ?_, ?_, ?_, ?_, fun z _ hz => ?_, fun k => ?_, ?_, draws_int fun z => exW z * dn (fun z => z.1) z * exD0 z⟩, ?_⟩
  · unfold exW num
    split_ifs <;> norm_num
  · rw [ex_pop]; norm_num [exW, num, dn]
  · rw [ex_pop]; norm_num [dn]
  · simp only [ex_pop, Matrix.det_unique, Matrix.of_apply]
    norm_num [exW, num, dn, ones]
  · norm_num [exY1, hz, num]
  · rw [ex_pop]
    norm_num [exW, num, dn, ones, exD0]
  · rw [ex_pop]
    norm_num [exW, num, dn, ones, exD0]
  · rw [ex_pop, ex_pop]
    norm_num [exW, num, dn, Bounds.code]

example (m : Meth) : ∀ᵐ ω ∂draws Coins, ∃ att se : ℕ → ℝ, (∀ᶠ n in atTop, ∃ ci, twoReport .code m exY1 exY0 exW (fun z => z.1) draw n ω = some (att n, se n, ci)) ∧
    Tendsto att atTop (𝓝 (13 / 3)) := by
  filter_upwards [C264_two_period_limit (m := m) draws_sampling ex_plain.1 ex_plain.2.1 ex_plain.2.2] with ω ⟨a, s, h1, h2, _⟩
  exact ⟨a, s, h1, ex_att ▸ h2⟩

example (m : Meth) : ∃ p : ℝ, Tendsto (fun n => (draws Coins).real {ω | ∃ att se lo hi, twoReport .code m exY1 exY0 exW (fun z => z.1) draw n ω = some (att, se, (lo, hi)) ∧
    lo ≤ 13 / 3 ∧ 13 / 3 ≤ hi}) atTop (𝓝 p) ∧ 950 / 1000 < p ∧ p < 95002 / 100000 := by
  have := C264_two_period_coverage (m := m) draws_sampling ex_plain.1 ex_plain.2.1 ex_plain.2.2 (by
    rw [ex_att]
    have h : influence (draws Coins) draw (fun z => exY1 z - exY0 z) exW (fun z => z.1) (fun _ => ones ()) (fun _ => 7 / 3) (13 / 3) (true, true, true) = 56 / 9 := by
      unfold influence
      simp only [ex_pop]
      norm_num [exW, num, dn, ones, exY1, exY0, exD0]
    rw [ex_pop]
    have h2 : 0 < influence (draws Coins) draw (fun z => exY1 z - exY0 z) exW (fun z => z.1) (fun _ => ones ()) (fun _ => 7 / 3) (13 / 3) (true, true, true) ^ 2 := by
      rw [h]; norm_num
    positivity)
  rwa [ex_att] at this

end Verif.Asym
