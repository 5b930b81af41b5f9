import Verif.Asym.NoCov
import Verif.DR.EntryRC

set_option linter.unusedSectionVars false
set_option linter.unusedSimpArgs false

/-!
# C269: repeated cross-sections without covariates, in large samples
-/

namespace Verif.Asym

open MeasureTheory ProbabilityTheory Filter Topology Verif.Honest Verif.DR

variable {Ω 𝓧 : Type*} [MeasurableSpace Ω] [MeasurableSpace 𝓧]

/-! ## Specification -/

/-- Indicator of an arm and a period. -/
def inArm (d post : 𝓧 → Bool) (c : Bool × Bool) (z : 𝓧) : ℝ := if d z = c.1 ∧ post z = c.2 then 1 else 0

/-- Weighted population mean of an outcome in an arm and a period. -/
noncomputable def armMean (P : Measure Ω) (X : ℕ → Ω → 𝓧) (y w : 𝓧 → ℝ) (d post : 𝓧 → Bool) (c : Bool × Bool) : ℝ :=
  pop P X (fun z => w z * inArm d post c z * y z) / pop P X fun z => w z * inArm d post c z

/-- The mean effect of treatment on the treated observations of the second period: outcome `y` less what it would have been without treatment, `y0`. -/
noncomputable def armATT (P : Measure Ω) (X : ℕ → Ω → 𝓧) (y y0 w : 𝓧 → ℝ) (d post : 𝓧 → Bool) : ℝ :=
  armMean P X (fun z => y z - y0 z) w d post (true, true)

/-- Influence of an observation on the difference in differences of the four means. -/
noncomputable def armInfluence (P : Measure Ω) (X : ℕ → Ω → 𝓧) (y w : 𝓧 → ℝ) (d post : 𝓧 → Bool) (z : 𝓧) : ℝ :=
  let dev := fun c => w z * inArm d post c z * (y z - armMean P X y w d post c) / pop P X fun z => w z * inArm d post c z
  (dev (true, true) - dev (true, false)) - (dev (false, true) - dev (false, false))

/-- The population: observations of two periods, moments, weight in the four cells, treated share below `level`, no effect on comparison or first-period observations,
and parallel trends of the means of the untreated outcome. -/
structure CrossTrends (P : Measure Ω) (X : ℕ → Ω → 𝓧) (y y0 w : 𝓧 → ℝ) (d post : 𝓧 → Bool) (level : ℝ) : Prop where
  nonneg : ∀ z, 0 ≤ w z
  meas_d : Measurable d
  meas_post : Measurable post
  sq_w : SqInt P X w
  sq_y : SqInt P X fun z => w z * y z
  int_y0 : Integrable (fun ω => w (X 0 ω) * inArm d post (true, true) (X 0 ω) * y0 (X 0 ω)) P
  cells : ∀ c, 0 < pop P X fun z => w z * inArm d post c z
  share : pop P X (fun z => w z * dn d z) / pop P X w < level
  untreated : ∀ z, ¬ (d z = true ∧ post z = true) → y z = y0 z
  trends : armMean P X y0 w d post (true, true) - armMean P X y0 w d post (true, false) = armMean P X y0 w d post (false, true) - armMean P X y0 w d post (false, false)

/-! ## Model -/

/-- The estimators for repeated cross-sections: `reg_did_rc`, `std_ipw_did_rc`, `drdid_trad_rc`, `drdid_rc`, `drdid_imp_rc`, `drdid_imp_local_rc`. -/
inductive CrossMeth | reg | ipw | trad | dr | imp | impLocal

section
variable {ι : Type*} [Fintype ι] (B : Bounds) (y : ι → ℝ) (post d : ι → Bool) (w0 : ι → ℝ)

/-- Their estimates; `none`: an input check fails.  On a constant the tilted scores of the improved estimators are the treated share as well (`DR.tilt_share`). -/
noncomputable def crossEst : CrossMeth → Option ℝ
  | .reg => regDidRC Ident.gramOLS y post d ones w0
  | .ipw => stdIpwDidRC shareLogit B.lo B.hi B.level y post d ones w0
  | .trad => drdidTradRC Ident.gramOLS shareLogit B.lo B.hi B.level y post d ones w0
  | .dr => drdidRC Ident.gramOLS shareLogit B.lo B.hi B.level y post d ones w0
  | .imp => drdidImpRC Ident.gramOLS shareLogit B.lo B.hi B.level y post d ones w0
  | .impLocal => drdidImpLocalRC Ident.gramOLS shareLogit B.lo B.hi B.level y post d ones w0

/-- Their influence functions with the fitted scores, regressions and matrices, `reg_did_rc.py:346-387`, `std_ipw_did_rc.py:296-342`, `drdid_trad_rc.py:348-421`,
`drdid_rc.py:444-547`, `drdid_imp_rc.py:286-328`, `drdid_imp_local_rc.py:337-401`. -/
noncomputable def crossInf (m : CrossMeth) : ι → ℝ :=
  let w := DR.normalize w0
  let ps := clip B.lo B.hi (shareLogit w d ones)
  let tr := trim B.level d ps
  let out := fun pre treat => fitted ones (Ident.gramOLS w (cellSel d post pre treat) ones y)
  let outI := fun pre => fitted ones (Ident.gramOLS (fun i => w i * (ps i / (1 - ps i))) (cellSel d post pre false) ones y)
  let H := gramInv (fun i => w i * (ps i * (1 - ps i))) ones
  let M0 := gramInv (fun i => w i * ((1 - ind d i) * preK post i)) ones
  let M1 := gramInv (fun i => w i * ((1 - ind d i) * postK post i)) ones
  let T0 := gramInv (fun i => w i * (ind d i * preK post i)) ones
  let T1 := gramInv (fun i => w i * (ind d i * postK post i)) ones
  match m with
  | .reg => regRCIF d post (out true false) (out false false) y w ones M0 M1
  | .ipw => ipwRCIF d tr post ps y w ones H
  | .trad => tradRCIF d tr post ps (out true false) (out false false) y w ones M0 M1 H
  | .dr => drRCIF d tr post ps (out true false) (out false false) (out true true) (out false true) y w ones M0 M1 T0 T1 H
  | .imp => impRCIF d tr post ps (outI true) (outI false) y w
  | .impLocal => impLocalRCIF d tr post ps (outI true) (outI false) (out true true) (out false true) y w

end

/-- What a user gets on the first `n` observations, `drdid_rc.py:165-169` and the same lines of the others. -/
noncomputable def crossReport (B : Bounds) (m : CrossMeth) (y w : 𝓧 → ℝ) (d post : 𝓧 → Bool) (X : ℕ → Ω → 𝓧) (n : ℕ) (ω : Ω) : Option (ℝ × ℝ × (ℝ × ℝ)) :=
  (crossEst B (fun i : Fin n => y (X i ω)) (fun i => post (X i ω)) (fun i => d (X i ω)) (fun i => w (X i ω)) m).map fun att =>
    let se := analyticSe (crossInf B (fun i : Fin n => y (X i ω)) (fun i => post (X i ω)) (fun i => d (X i ω)) (fun i => w (X i ω)) m)
    (att, se, Report.didInterval att se)

/-! ## Samples -/

section
variable {ι : Type*} [Fintype ι] {B : Bounds} {y : ι → ℝ} {post d : ι → Bool} {w : ι → ℝ}

theorem rank_sel {v : ι → ℝ} {sel : ι → Bool} (h : 0 < ∑ i with sel i = true, v i) : FullRank v sel (ones (ι := ι)) := by
  intro u hu
  have h1 := hu ()
  simp only [ones, Finset.univ_unique, PUnit.default_eq_unit, Finset.sum_singleton, one_mul, mul_one, ← Finset.sum_mul] at h1
  funext k
  exact (mul_eq_zero.1 h1).resolve_left h.ne'

theorem sel_iff (pre treat : Bool) (i : ι) : cellSel d post pre treat i = true ↔ d i = treat ∧ post i = !pre := by
  unfold cellSel
  cases d i <;> cases post i <;> cases pre <;> cases treat <;> simp

theorem sel_sum (pre treat : Bool) (v : ι → ℝ) : ∑ i with cellSel d post pre treat i = true, v i = ∑ i with d i = treat ∧ post i = !pre, v i :=
  Finset.sum_congr (by ext i; simp [sel_iff]) fun _ _ => rfl

theorem gram_one {v : ι → ℝ} (h : DR.mean v ≠ 0) : IsGramInv v (ones (ι := ι)) (gramInv v ones) := by
  intro k l
  simp only [ones, mul_one, Finset.univ_unique, Finset.sum_singleton, if_true, gramInv]
  rw [minv_eq]
  simp [Matrix.det_unique, Matrix.adjugate_subsingleton, mul_inv_cancel₀ h]

theorem avgIF_scale {c : ℝ} (hc : c ≠ 0) (S : ι → Prop) [DecidablePred S] (i : ι) : DR.NoCov.avgIF (fun i => w i / c) S y i = DR.NoCov.avgIF w S y i := by
  unfold DR.NoCov.avgIF wavg
  simp only [div_mul_eq_mul_div, ← Finset.sum_div]
  rw [div_div_div_cancel_right₀ hc, div_div_div_cancel_right₀ hc]

/-- On samples with weight in the four cells and the treated share below the trimming level, every method returns the difference in differences of the four means, with its
influence function. -/
theorem cross_eq (hw : FourCells w d post) (hs : treatedShare w d < B.level) (m : CrossMeth) :
    crossEst B y post d w m = some (did4 w d post y) ∧ ∀ i, crossInf B y post d w m i = DR.NoCov.did4IF w d post y i := by
  have hx : ∀ i : ι, ones i () = 1 := fun _ => rfl
  have hsc : ScoreEq (DR.normalize w) d (ones (ι := ι)) (shareLogit (DR.normalize w) d ones) := by
    intro k
    simp only [ones, mul_one, shareLogit, mul_sub, Finset.sum_sub_distrib, ← Finset.sum_mul, mul_ite, mul_zero]
    rw [treatedShare, mul_div_cancel₀ _ hw.norm.arms.total.ne', Finset.sum_filter, sub_self]
  have hq : min B.hi (max B.lo (treatedShare w d)) < B.level := lt_of_le_of_lt (min_le_right _ _) (max_lt B.lo_lt hs)
  obtain ⟨q, hqe⟩ : ∃ q, q = min B.hi (max B.lo (treatedShare w d)) := ⟨_, rfl⟩
  have hps : clip B.lo B.hi (shareLogit (DR.normalize w) d (ones (ι := ι))) = fun _ => q := by
    funext i
    unfold clip shareLogit
    rw [share_normalize hw.arms, hqe]
  have hq0 : 0 < q := by rw [hqe]; exact lt_min (B.lo_pos.trans_le B.lo_le) (B.lo_pos.trans_le (le_max_left _ _))
  have hq1 : q < 1 := by rw [hqe]; exact (min_le_left _ _).trans_lt B.hi_lt
  have hodds : 0 < q / (1 - q) := div_pos hq0 (sub_pos.2 hq1)
  have hsel : ∀ pre treat, 0 < ∑ i with cellSel d post pre treat i = true, DR.normalize w i := fun pre treat => by
    rw [sel_sum]
    exact hw.norm.pos _ _
  have hols : ∀ pre treat, NormalEq (DR.normalize w) (cellSel d post pre treat) ones y (Ident.gramOLS (DR.normalize w) (cellSel d post pre treat) ones y) := fun pre treat =>
    (Ident.gramOLS_fits (DR.normalize w) _ (ones (ι := ι)) (rank_sel (hsel pre treat))).solves y
  have holsI : ∀ pre, NormalEq (DR.normalize w) (cellSel d post pre false) ones y
      (Ident.gramOLS (fun i => DR.normalize w i * (q / (1 - q))) (cellSel d post pre false) ones y) := fun pre => by
    have h := (Ident.gramOLS_fits (fun i => DR.normalize w i * (q / (1 - q))) _ (ones (ι := ι)) (rank_sel (sel := cellSel d post pre false) (by
      rw [← Finset.sum_mul]
      exact mul_pos (hsel pre false) hodds))).solves y
    intro k
    have h1 := h k
    rw [← mul_right_inj' hodds.ne', mul_zero, Finset.mul_sum]
    rw [← h1]
    exact Finset.sum_congr rfl fun i _ => by ring
  have hcell : ∀ a b : Bool, DR.mean (fun i => DR.normalize w i * if d i = a ∧ post i = b then 1 else 0) ≠ 0 := fun a b => by
    refine mean_sel (fun i => decide (d i = a ∧ post i = b)) _ (fun i => by simp) ?_
    simpa using hw.norm.pos a b
  have hfit : ∀ b0 b1, NormalEq (DR.normalize w) (fun i => !d i && !post i) ones y b0 → NormalEq (DR.normalize w) (fun i => !d i && post i) ones y b1 →
      DR.NoCov.RCFit (DR.normalize w) d (trim B.level d fun _ => q) post y ones b0 b1 (fun _ => q) q
        (gramInv (fun i => DR.normalize w i * ((1 - ind d i) * preK post i)) ones) (gramInv (fun i => DR.normalize w i * ((1 - ind d i) * postK post i)) ones) :=
    fun b0 b1 h0 h1 => by
    refine ⟨hx, hcell, mean_sel d _ (fun i => rfl) hw.norm.arms.treated, h0, h1, fun _ => rfl, hq0.ne', hq1.ne, fun i => ?_, gram_one ?_, gram_one ?_⟩
    · unfold trim
      split_ifs
      · rfl
      · simpa [hqe] using hq
    · have := hcell false false
      convert this using 4 with i
      simp only [ind, preK]
      cases d i <;> cases post i <;> simp
    · have := hcell false true
      convert this using 4 with i
      simp only [ind, postK]
      cases d i <;> cases post i <;> simp
  have hs0 : cellSel d post true false = fun i => !d i && !post i := by
    funext i
    rw [Bool.eq_iff_iff, sel_iff]
    cases d i <;> cases post i <;> simp
  have hs1 : cellSel d post false false = fun i => !d i && post i := by
    funext i
    rw [Bool.eq_iff_iff, sel_iff]
    cases d i <;> cases post i <;> simp
  have hF := hfit _ _ (hs0 ▸ hols true false) (hs1 ▸ hols false false)
  have hI := hfit _ _ (hs0 ▸ holsI true) (hs1 ▸ holsI false)
  have hipt : ∃ p, shareLogit (DR.normalize w) d (ones (ι := ι)) = (fun _ => p) ∧
      ∑ i with d i = true, DR.normalize w i = ∑ i with d i = false, DR.normalize w i * (p / (1 - p)) := by
    refine ⟨treatedShare (DR.normalize w) d, rfl, ?_⟩
    have h1 := hw.norm.arms.treated
    have h2 := hw.norm.arms.control
    have h3 : ∑ i, DR.normalize w i = ∑ i with d i = true, DR.normalize w i + ∑ i with d i = false, DR.normalize w i := by
      rw [← Finset.sum_filter_add_sum_filter_not Finset.univ (fun i => d i = true)]
      simp
    rw [← Finset.sum_mul, treatedShare, h3]
    generalize ∑ i with d i = true, DR.normalize w i = A at *
    generalize ∑ i with d i = false, DR.normalize w i = C at *
    have : A + C ≠ 0 := (add_pos h1 h2).ne'
    have hC : C ≠ 0 := h2.ne'
    have hAC : 1 - A / (A + C) = C / (A + C) := by field_simp; ring
    rw [hAC]
    field_simp
  have hn : ∀ i, DR.NoCov.did4IF (DR.normalize w) d post y i = DR.NoCov.did4IF w d post y i := fun i => by
    have e : ∀ (S : ι → Prop) [DecidablePred S], DR.NoCov.avgIF (DR.normalize w) S y i = DR.NoCov.avgIF w S y i := fun S _ => avgIF_scale hw.arms.mean_pos.ne' S i
    unfold DR.NoCov.did4IF
    simp only [e]
  refine ⟨?_, fun i => ?_⟩
  · cases m with
    | reg => exact C29_reg_no_covariates Ident.gramOLS y post d ones w hx hw fun pre => hols pre false
    | ipw => exact C29_ipw_no_covariates shareLogit B.lo B.hi B.level y post d ones w B.lo_pos B.hi_lt B.lo_le hx hw ⟨_, rfl⟩ hsc hq
    | trad => exact C29_trad_no_covariates Ident.gramOLS shareLogit B.lo B.hi B.level y post d ones w B.lo_pos B.hi_lt B.lo_le hx hw ⟨_, rfl⟩ hsc hq
    | dr => exact C29_dr_no_covariates Ident.gramOLS shareLogit B.lo B.hi B.level y post d ones w B.lo_pos B.hi_lt B.lo_le hx hw ⟨_, rfl⟩ hsc hq
    | imp => exact (DR.Entry.tilt_no_covariates Ident.gramOLS shareLogit B.lo B.hi B.level y post d ones w B.lo_pos B.hi_lt B.lo_le hx hw hipt hq).1
    | impLocal => exact (DR.Entry.tilt_no_covariates Ident.gramOLS shareLogit B.lo B.hi B.level y post d ones w B.lo_pos B.hi_lt B.lo_le hx hw hipt hq).2
  · rw [← hn]
    unfold crossInf
    simp only [hps]
    cases m with
    | reg => simp only [hs0, hs1]; exact DR.NoCov.C263_reg_rc hF i
    | ipw => exact DR.NoCov.C263_ipw_rc hF _ i
    | trad => simp only [hs0, hs1]; exact DR.NoCov.C263_trad_rc hF _ i
    | dr => simp only [hs0, hs1]; exact DR.NoCov.C263_dr_rc hF _ _ _ i
    | imp => simp only [hs0, hs1]; exact DR.NoCov.C263_imp_rc hI i
    | impLocal => simp only [hs0, hs1]; exact DR.NoCov.C263_imp_local_rc hI i

end

/-! ## Weighted means -/

section
variable {P : Measure Ω} [IsProbabilityMeasure P] {X : ℕ → Ω → 𝓧} (hX : Sampling P X)
include hX

/-- A weighted mean is a regular estimator. -/
theorem mean_regular {e y : 𝓧 → ℝ} (he : SqInt P X e) (hy : SqInt P X fun z => e z * y z) (h0 : pop P X e ≠ 0) :
    Regular P X (fun n ω => avg X (fun z => e z * y z) n ω / avg X e n ω)
      (fun n ω i => e (X i ω) * (y (X i ω) - avg X (fun z => e z * y z) n ω / avg X e n ω) / avg X e n ω)
      (pop P X (fun z => e z * y z) / pop P X e) (fun n => {ω | avg X e n ω ≠ 0})
      fun z => e z * (y z - pop P X (fun z => e z * y z) / pop P X e) / pop P X e := by
  obtain ⟨θ, hθ⟩ : ∃ θ, θ = pop P X (fun z => e z * y z) / pop P X e := ⟨_, rfl⟩
  rw [← hθ]
  have hu : SqInt P X fun z => e z * y z - θ * e z := ⟨hy.1.sub (he.1.const_mul θ), hy.2.sub (he.2.const_mul θ)⟩
  have m1 := fun n => avg_aemeas hX he.1 n
  have m2 := fun n => avg_aemeas hX hy.1 n
  have hp : Plugin P X (fun n ω => avg X (fun z => e z * y z) n ω / avg X e n ω)
      (fun n ω i => e (X i ω) * (y (X i ω) - avg X (fun z => e z * y z) n ω / avg X e n ω) / avg X e n ω) θ (fun n => {ω | avg X e n ω ≠ 0})
      (fun (_ : Unit) z => e z * y z - θ * e z) (fun n ω _ => (avg X e n ω)⁻¹) (fun _ => (pop P X e)⁻¹)
      (fun (b : Bool) z => if b then e z * y z else e z)
      (fun n ω b => if b then (avg X e n ω)⁻¹ else -(avg X (fun z => e z * y z) n ω / avg X e n ω) * (avg X e n ω)⁻¹)
      (fun b => if b then (pop P X e)⁻¹ else -θ * (pop P X e)⁻¹) := by
    refine ⟨fun _ => hu, fun _ => ?_, fun n _ => (m1 n).inv, ?_, fun b => ?_, fun n b => ?_, ?_, fun z => ?_, fun n => ?_, ?_, fun n ω hω => ?_, fun n ω hω i => ?_⟩
    · unfold pop
      rw [integral_sub (hy.2.integrable (by norm_num)) ((he.2.integrable (by norm_num)).const_mul θ), integral_const_mul]
      change pop P X (fun z => e z * y z) - θ * pop P X e = 0
      rw [hθ, div_mul_cancel₀ _ h0, sub_self]
    · filter_upwards [lln2 hX he] with ω h1 _
      exact h1.inv₀ h0
    · cases b
      · exact he
      · exact hy
    · cases b
      · exact (((m2 n).div (m1 n)).neg).mul (m1 n).inv
      · exact (m1 n).inv
    · filter_upwards [lln2 hX he, lln2 hX hy] with ω h1 h2 b
      cases b
      · have := ((h2.div h1 h0).neg).mul (h1.inv₀ h0)
        rw [← hθ] at this
        exact this
      · exact h1.inv₀ h0
    · simp only [Finset.univ_unique, Finset.sum_singleton, Fintype.sum_bool, if_true, Bool.false_eq_true, if_false]
      ring
    · exact (nullMeasurableSet_eq_fun (m1 n) aemeasurable_const).compl
    · filter_upwards [lln2 hX he] with ω h1
      exact h1.eventually_ne h0
    · rw [Set.mem_ofPred_eq] at hω
      simp only [Finset.univ_unique, Finset.sum_singleton]
      have : avg X (fun z => e z * y z - θ * e z) n ω = avg X (fun z => e z * y z) n ω - θ * avg X e n ω := by
        unfold avg
        rw [Finset.sum_sub_distrib, ← Finset.mul_sum]
        ring
      rw [this]
      field_simp
    · simp only [Fintype.sum_bool, if_true, Bool.false_eq_true, if_false]
      ring
  refine hp.regular hX (fun z => ?_) fun n ω hω => ?_
  · simp only [Finset.univ_unique, Finset.sum_singleton]
    ring
  · rw [Set.mem_ofPred_eq] at hω
    have h1 : DR.mean (fun i : Fin n => e (X i ω) * y (X i ω)) = avg X (fun z => e z * y z) n ω := mean_eq X (fun z => e z * y z) n ω
    have h2 : DR.mean (fun i : Fin n => e (X i ω)) = avg X e n ω := mean_eq X e n ω
    have : (fun i : Fin n => e (X i ω) * (y (X i ω) - avg X (fun z => e z * y z) n ω / avg X e n ω) / avg X e n ω) =
        fun i : Fin n => (avg X e n ω)⁻¹ * (e (X i ω) * y (X i ω)) + (-(avg X (fun z => e z * y z) n ω / avg X e n ω) * (avg X e n ω)⁻¹) * e (X i ω) := by
      funext i
      ring
    rw [this, mean_add', mean_mul', mean_mul', h1, h2]
    field_simp
    ring

/-- The usual two-period report with 1.96 standard errors: limits and coverage. -/
theorem Regular.report {est : ℕ → Ω → ℝ} {inf : (n : ℕ) → Ω → Fin n → ℝ} {θ : ℝ} {G : ℕ → Set Ω} {ψ : 𝓧 → ℝ} (h : Regular P X est inf θ G ψ)
    (rep : ℕ → Ω → Option (ℝ × ℝ × (ℝ × ℝ))) (hr : ∀ n, ∀ ω ∈ G n, rep n ω = some (est n ω, analyticSe (inf n ω), Report.didInterval (est n ω) (analyticSe (inf n ω)))) :
    (∀ᵐ ω ∂P, ∃ att se : ℕ → ℝ, (∀ᶠ n in atTop, ∃ ci, rep n ω = some (att n, se n, ci)) ∧ Tendsto att atTop (𝓝 θ) ∧
      Tendsto (fun n : ℕ => Real.sqrt n * se n) atTop (𝓝 (Real.sqrt (pop P X fun z => ψ z ^ 2)))) ∧
    (0 < pop P X (fun z => ψ z ^ 2) → ∃ p : ℝ, Tendsto (fun n => P.real {ω | ∃ att se lo hi, rep n ω = some (att, se, (lo, hi)) ∧ lo ≤ θ ∧ θ ≤ hi}) atTop (𝓝 p) ∧
      950 / 1000 < p ∧ p < 95002 / 100000) := by
  obtain ⟨⟨m, l, u, a, a', f, c, c', hp, hψ⟩, -⟩ := h
  refine ⟨?_, fun hv => ⟨Phi (196 / 100) - Phi (-(196 / 100)), ?_, ?_, ?_⟩⟩
  · filter_upwards [hp.consistent hX, hp.se_limit hX, hp.Gev] with ω h1 h2 h3
    simp only [hψ] at h2
    refine ⟨_, _, ?_, h1, h2⟩
    filter_upwards [h3] with n hn
    exact ⟨_, hr n ω hn⟩
  · have hp2 : Plugin P X est inf θ (fun n => G n ∩ {_ω | 2 ≤ n}) u a a' f c c' := { hp with
      Gm := fun n => (hp.Gm n).inter (MeasurableSet.const _).nullMeasurableSet
      Gev := by
        filter_upwards [hp.Gev] with ω h3
        filter_upwards [h3, eventually_ge_atTop 2] with n h4 h5
        exact ⟨h4, h5⟩
      est_eq := fun n ω hω => hp.est_eq n ω hω.1
      inf_eq := fun n ω hω => hp.inf_eq n ω hω.1 }
    refine hp2.coverage hX (196 / 100) (by norm_num) (by simpa only [hψ] using hv) (fun _ => 1) tendsto_const_nhds _ fun n ω hω => ?_
    rw [Set.mem_ofPred_eq, mul_one, ← analyticSe_eq hω.2, hr n ω hω.1]
    constructor
    · rintro ⟨a, s, lo, hi, h, h1, h2⟩
      simp only [Option.some.injEq, Prod.mk.injEq] at h
      obtain ⟨-, -, h⟩ := h
      rw [Prod.ext_iff] at h
      simp only [Report.didInterval, Report.rowInterval] at h
      rw [← h.1] at h1
      rw [← h.2] at h2
      exact ⟨h1, h2⟩
    · rintro ⟨h1, h2⟩
      exact ⟨_, _, _, _, rfl, h1, h2⟩
  · have := Report.phi_196_lower
    rw [phi_neg]
    linarith
  · have := Report.phi_196_upper
    rw [phi_neg]
    linarith

end

/-! ## The estimators -/

section
variable {P : Measure Ω} [IsProbabilityMeasure P] {X : ℕ → Ω → 𝓧} (hX : Sampling P X) {y y0 w : 𝓧 → ℝ} {d post : 𝓧 → Bool} {B : Bounds} {m : CrossMeth}
  (hT : CrossTrends P X y y0 w d post B.level)

/-- Signs of the four cells. -/
def armSign (c : Bool × Bool) : ℝ := if c.1 = c.2 then 1 else -1

/-- Samples with weight in the four cells and the treated share below the trimming level. -/
def xGood (w : 𝓧 → ℝ) (d post : 𝓧 → Bool) (level : ℝ) (X : ℕ → Ω → 𝓧) (n : ℕ) : Set Ω :=
  (⋂ c, {ω | 0 < avg X (fun z => w z * inArm d post c z) n ω}) ∩ {ω | avg X (fun z => w z * dn d z) n ω < level * avg X w n ω}

omit [MeasurableSpace Ω] [MeasurableSpace 𝓧] in
theorem arm_avg (X : ℕ → Ω → 𝓧) (y w : 𝓧 → ℝ) (d post : 𝓧 → Bool) (a b : Bool) {n : ℕ} {ω : Ω} (h : 0 < n) :
    wavg (fun i : Fin n => w (X i ω)) (fun i => d (X i ω) = a ∧ post (X i ω) = b) (fun i => y (X i ω)) =
      avg X (fun z => w z * inArm d post (a, b) z * y z) n ω / avg X (fun z => w z * inArm d post (a, b) z) n ω ∧
    ∀ i : Fin n, DR.NoCov.avgIF (fun i : Fin n => w (X i ω)) (fun i => d (X i ω) = a ∧ post (X i ω) = b) (fun i => y (X i ω)) i =
      w (X i ω) * inArm d post (a, b) (X i ω) * (y (X i ω) - avg X (fun z => w z * inArm d post (a, b) z * y z) n ω / avg X (fun z => w z * inArm d post (a, b) z) n ω) /
        avg X (fun z => w z * inArm d post (a, b) z) n ω := by
  have hn : (n : ℝ) ≠ 0 := by exact_mod_cast h.ne'
  have e1 : ∀ f : 𝓧 → ℝ, avg X f n ω = (∑ i : Fin n, f (X i ω)) / n := fun f => by
    unfold avg
    rw [Finset.sum_range]
  have e2 : ∑ i : Fin n with d (X i.1 ω) = a ∧ post (X i.1 ω) = b, w (X i ω) = ∑ i : Fin n, w (X i ω) * inArm d post (a, b) (X i ω) := by
    rw [Finset.sum_filter]
    refine Finset.sum_congr rfl fun i _ => ?_
    unfold inArm
    split_ifs <;> simp
  have e3 : ∑ i : Fin n with d (X i.1 ω) = a ∧ post (X i.1 ω) = b, w (X i ω) * y (X i ω) = ∑ i : Fin n, w (X i ω) * inArm d post (a, b) (X i ω) * y (X i ω) := by
    rw [Finset.sum_filter]
    refine Finset.sum_congr rfl fun i _ => ?_
    unfold inArm
    split_ifs <;> simp
  have e4 : wavg (fun i : Fin n => w (X i ω)) (fun i => d (X i ω) = a ∧ post (X i ω) = b) (fun i => y (X i ω)) =
      avg X (fun z => w z * inArm d post (a, b) z * y z) n ω / avg X (fun z => w z * inArm d post (a, b) z) n ω := by
    unfold wavg
    rw [e2, e3, e1, e1, div_div_div_cancel_right₀ hn]
  refine ⟨e4, fun i => ?_⟩
  unfold DR.NoCov.avgIF
  rw [e4, e2, e1 fun z => w z * inArm d post (a, b) z, Fintype.card_fin]
  generalize (avg X (fun z => w z * inArm d post (a, b) z * y z) n ω / ((∑ i : Fin n, w (X i ω) * inArm d post (a, b) (X i ω)) / n)) = q
  generalize (∑ i : Fin n, w (X i ω) * inArm d post (a, b) (X i ω)) = r
  unfold inArm
  split_ifs with hc
  · rw [div_div_eq_mul_div]
    ring
  · simp

omit [MeasurableSpace Ω] [MeasurableSpace 𝓧] in
theorem crossReport_eq {X : ℕ → Ω → 𝓧} {n : ℕ} {ω : Ω} (hw : ∀ z, 0 ≤ w z) (h : ω ∈ xGood w d post B.level X n) :
    crossEst B (fun i : Fin n => y (X i ω)) (fun i => post (X i ω)) (fun i => d (X i ω)) (fun i => w (X i ω)) m =
      some (∑ c, armSign c * (avg X (fun z => w z * inArm d post c z * y z) n ω / avg X (fun z => w z * inArm d post c z) n ω)) ∧
    crossInf B (fun i : Fin n => y (X i ω)) (fun i => post (X i ω)) (fun i => d (X i ω)) (fun i => w (X i ω)) m =
      fun i : Fin n => ∑ c, armSign c * (w (X i ω) * inArm d post c (X i ω) *
        (y (X i ω) - avg X (fun z => w z * inArm d post c z * y z) n ω / avg X (fun z => w z * inArm d post c z) n ω) / avg X (fun z => w z * inArm d post c z) n ω) := by
  obtain ⟨h1, h3⟩ := h
  rw [Set.mem_iInter] at h1
  have hn : 0 < n := by
    rcases Nat.eq_zero_or_pos n with rfl | h
    · have := h1 (true, true)
      simp [avg] at this
    · exact h
  have hn' : (0 : ℝ) < n := by exact_mod_cast hn
  have hA : ∀ f : 𝓧 → ℝ, avg X f n ω = (∑ i : Fin n, f (X i ω)) / n := fun f => by
    unfold avg
    rw [Finset.sum_range]
  have e1 : ∀ a b, ∑ i : Fin n with d (X i.1 ω) = a ∧ post (X i.1 ω) = b, w (X i ω) = ∑ i : Fin n, w (X i ω) * inArm d post (a, b) (X i ω) := fun a b => by
    rw [Finset.sum_filter]
    refine Finset.sum_congr rfl fun i _ => ?_
    unfold inArm
    split_ifs <;> simp
  have e2 : ∑ i : Fin n with d (X i.1 ω) = true, w (X i ω) = ∑ i : Fin n, w (X i ω) * dn d (X i ω) := by
    rw [Finset.sum_filter]
    refine Finset.sum_congr rfl fun i _ => ?_
    unfold dn
    split_ifs <;> simp
  have h4 : FourCells (fun i : Fin n => w (X i ω)) (fun i => d (X i ω)) fun i => post (X i ω) := by
    refine ⟨fun i => hw _, fun a b => ?_⟩
    have := h1 (a, b)
    rw [Set.mem_ofPred_eq, hA] at this
    rw [e1]
    exact (div_pos_iff_of_pos_right hn').1 this
  rw [Set.mem_ofPred_eq, hA, hA, ← mul_div_assoc, div_lt_div_iff_of_pos_right hn'] at h3
  have h5 := cross_eq (B := B) (y := fun i : Fin n => y (X i ω)) h4 (by
    unfold treatedShare
    rw [e2, div_lt_iff₀ h4.arms.total]
    exact h3) m
  constructor
  · rw [h5.1]
    unfold did4
    simp only [Fintype.sum_prod_type, Fintype.sum_bool, armSign, if_true, Bool.false_eq_true, if_false, (arm_avg X y w d post _ _ hn).1]
    congr 1
    simp
    ring
  · funext i
    rw [h5.2]
    unfold DR.NoCov.did4IF
    simp only [Fintype.sum_prod_type, Fintype.sum_bool, armSign, if_true, Bool.false_eq_true, if_false, (arm_avg X y w d post _ _ hn).2]
    simp
    ring

include hT

theorem arm_meas (c : Bool × Bool) : Measurable (inArm d post c) :=
  Measurable.ite ((measurableSet_eq_fun hT.meas_d measurable_const).inter (measurableSet_eq_fun hT.meas_post measurable_const)) measurable_const measurable_const

include hX

theorem arm_sq (c : Bool × Bool) : SqInt P X (fun z => w z * inArm d post c z) ∧ SqInt P X fun z => w z * inArm d post c z * y z := by
  have hb : ∀ z, |inArm d post c z| ≤ 1 := fun z => by unfold inArm; split_ifs <;> norm_num
  refine ⟨hT.sq_w.mul_le (hX.aemeas 0) (arm_meas hT c) hb, ?_⟩
  have := hT.sq_y.mul_le (hX.aemeas 0) (arm_meas hT c) hb
  exact (funext fun z => by ring : (fun z => w z * y z * inArm d post c z) = fun z => w z * inArm d post c z * y z) ▸ this

theorem xGood_ok : (∀ n, NullMeasurableSet (xGood w d post B.level X n) P) ∧ ∀ᵐ ω ∂P, ∀ᶠ n in atTop, ω ∈ xGood w d post B.level X n := by
  have s1 : SqInt P X fun z => w z * dn d z := hT.sq_w.mul_le (hX.aemeas 0) (dn_measurable hT.meas_d) fun z => by unfold dn; split_ifs <;> norm_num
  have hwp : 0 < pop P X w := by
    refine (hT.cells (true, true)).trans_le (integral_mono ((arm_sq hX hT _).1.2.integrable (by norm_num)) (hT.sq_w.2.integrable (by norm_num)) fun ω => ?_)
    have h1 := hT.nonneg (X 0 ω)
    dsimp only
    unfold inArm
    split_ifs <;> linarith
  constructor
  · intro n
    exact (NullMeasurableSet.iInter fun c => nullMeasurableSet_lt aemeasurable_const (avg_aemeas hX (arm_sq hX hT c).1.1 n)).inter
      (nullMeasurableSet_lt (avg_aemeas hX s1.1 n) ((avg_aemeas hX hT.sq_w.1 n).const_mul B.level))
  · have h0 : ∀ᵐ ω ∂P, ∀ c : Bool × Bool, Tendsto (fun n => avg X (fun z => w z * inArm d post c z) n ω) atTop (𝓝 (pop P X fun z => w z * inArm d post c z)) :=
      ae_all_iff.2 fun c => lln2 hX (arm_sq hX hT c).1
    filter_upwards [h0, lln2 hX s1, lln2 hX hT.sq_w] with ω h1 h2 h3
    have hs := hT.share
    rw [div_lt_iff₀ hwp] at hs
    filter_upwards [eventually_all.2 fun c => (h1 c).eventually_const_lt (hT.cells c), h2.eventually_lt (h3.const_mul B.level) hs] with n a1 a2
    exact ⟨Set.mem_iInter.2 a1, a2⟩

/-- Parallel trends identify the effect. -/
theorem arm_att : armATT P X y y0 w d post = ∑ c, armSign c * (pop P X (fun z => w z * inArm d post c z * y z) / pop P X fun z => w z * inArm d post c z) := by
  have h1 : ∀ c, c ≠ (true, true) → armMean P X y0 w d post c = armMean P X y w d post c := fun c hc => by
    unfold armMean
    congr 2
    funext z
    unfold inArm
    split_ifs with h
    · rw [hT.untreated z fun h' => hc (Prod.ext (h.1.symm.trans h'.1) (h.2.symm.trans h'.2))]
    · simp
  have h2 : armATT P X y y0 w d post = armMean P X y w d post (true, true) - armMean P X y0 w d post (true, true) := by
    unfold armATT armMean
    rw [← sub_div]
    congr 1
    unfold pop
    rw [← integral_sub ((arm_sq hX hT _).2.2.integrable (by norm_num)) hT.int_y0]
    congr 1
    funext ω
    ring
  have h3 := hT.trends
  rw [h1 (true, false) (by decide), h1 (false, true) (by decide), h1 (false, false) (by decide)] at h3
  rw [h2]
  simp only [Fintype.sum_prod_type, Fintype.sum_bool, armSign]
  simp only [if_true, Bool.false_eq_true, if_false, reduceCtorEq, one_mul, neg_mul]
  change _ = armMean P X y w d post (true, true) + -armMean P X y w d post (true, false) + (-armMean P X y w d post (false, true) + armMean P X y w d post (false, false))
  linarith

theorem cross_regular : ∃ (est : ℕ → Ω → ℝ) (inf : (n : ℕ) → Ω → Fin n → ℝ), Regular P X est inf (armATT P X y y0 w d post) (xGood w d post B.level X) (armInfluence P X y w d post) ∧
    ∀ n, ∀ ω ∈ xGood w d post B.level X n, crossReport B m y w d post X n ω = some (est n ω, analyticSe (inf n ω), Report.didInterval (est n ω) (analyticSe (inf n ω))) := by
  have h1 := Regular.fixed hX (fun c => mean_regular hX (arm_sq hX hT c).1 (arm_sq hX hT c).2 (hT.cells c).ne') armSign
  rw [← arm_att hX hT] at h1
  have h2 : (fun z => ∑ c, armSign c * (w z * inArm d post c z * (y z - pop P X (fun z => w z * inArm d post c z * y z) / pop P X fun z => w z * inArm d post c z) /
      pop P X fun z => w z * inArm d post c z)) = armInfluence P X y w d post := by
    funext z
    unfold armInfluence armMean
    simp only [Fintype.sum_prod_type, Fintype.sum_bool, armSign]
    simp
    ring
  rw [h2] at h1
  obtain ⟨est, hest⟩ : ∃ est : ℕ → Ω → ℝ, est = fun n ω => ∑ c, armSign c * (avg X (fun z => w z * inArm d post c z * y z) n ω / avg X (fun z => w z * inArm d post c z) n ω) := ⟨_, rfl⟩
  obtain ⟨inf, hinf⟩ : ∃ inf : (n : ℕ) → Ω → Fin n → ℝ, inf = fun n ω (i : Fin n) => ∑ c, armSign c * (w (X i ω) * inArm d post c (X i ω) *
    (y (X i ω) - avg X (fun z => w z * inArm d post c z * y z) n ω / avg X (fun z => w z * inArm d post c z) n ω) / avg X (fun z => w z * inArm d post c z) n ω) := ⟨_, rfl⟩
  rw [← hest, ← hinf] at h1
  obtain ⟨⟨mm, l, u, a, a', f, c, c', hp, hψ⟩, h0⟩ := h1
  have hsub : ∀ n, xGood w d post B.level X n ⊆ ⋂ c, {ω | avg X (fun z => w z * inArm d post c z) n ω ≠ 0} := fun n ω hω =>
    Set.mem_iInter.2 fun c => (Set.mem_iInter.1 hω.1 c : 0 < avg X (fun z => w z * inArm d post c z) n ω).ne'
  have hg := xGood_ok hX hT
  refine ⟨est, inf, ⟨⟨mm, l, u, a, a', f, c, c', { hp with
      Gm := hg.1
      Gev := hg.2
      est_eq := fun n ω hω => hp.est_eq n ω (hsub n hω)
      inf_eq := fun n ω hω => hp.inf_eq n ω (hsub n hω) }, hψ⟩, fun n ω hω => h0 n ω (hsub n hω)⟩, fun n ω hω => ?_⟩
  have h3 := crossReport_eq (B := B) (m := m) (y := y) hT.nonneg hω
  unfold crossReport
  rw [h3.1, h3.2, hest, hinf]
  rfl

/-- **C269 (consistency).**  With probability one every one of the six estimators reports from some sample size on; the estimate tends to the mean effect on the treated, and `√n`
times the standard error to the standard deviation of the influence. -/
theorem C269_limit : ∀ᵐ ω ∂P, ∃ att se : ℕ → ℝ, (∀ᶠ n in atTop, ∃ ci, crossReport B m y w d post X n ω = some (att n, se n, ci)) ∧
    Tendsto att atTop (𝓝 (armATT P X y y0 w d post)) ∧
    Tendsto (fun n : ℕ => Real.sqrt n * se n) atTop (𝓝 (Real.sqrt (pop P X fun z => armInfluence P X y w d post z ^ 2))) := by
  obtain ⟨est, inf, h1, h2⟩ := cross_regular (m := m) hX hT
  exact (h1.report hX _ h2).1

/-- **C269 (coverage).** -/
theorem C269_coverage (hv : 0 < pop P X fun z => armInfluence P X y w d post z ^ 2) :
    ∃ p : ℝ, Tendsto (fun n => P.real {ω | ∃ att se lo hi, crossReport B m y w d post X n ω = some (att, se, (lo, hi)) ∧
      lo ≤ armATT P X y y0 w d post ∧ armATT P X y y0 w d post ≤ hi}) atTop (𝓝 p) ∧ 950 / 1000 < p ∧ p < 95002 / 100000 := by
  obtain ⟨est, inf, h1, h2⟩ := cross_regular (m := m) hX hT
  exact (h1.report hX _ h2).2 hv

end

/-! ## A population of two cross-sections -/

def xcD (z : Coins) : Bool := z.1
def xcP (z : Coins) : Bool := z.2.1
def xcW (z : Coins) : ℝ := 1 + num z.2.2
def xcY0 (z : Coins) : ℝ := 1 + 2 * num z.2.1 + 3 * num z.1 + (2 * num z.2.2 - 1)
def xcY (z : Coins) : ℝ := xcY0 z + num z.1 * num z.2.1 * (3 + 3 * num z.2.2)

theorem xc_trends : CrossTrends (draws Coins) draw xcY xcY0 xcW xcD xcP Bounds.code.level := by
  refine ⟨fun z => ?_, measurable_of_finite _, measurable_of_finite _, draws_sq _, draws_sq _, draws_int fun z => xcW z * inArm xcD xcP (true, true) z * xcY0 z, fun c => ?_, ?_,
    fun z hz => ?_, ?_⟩
  · unfold xcW num
    split_ifs <;> norm_num
  · rw [ex_pop]
    obtain ⟨a, b⟩ := c
    cases a <;> cases b <;> norm_num [xcW, inArm, num, xcD, xcP]
  · rw [ex_pop, ex_pop]
    norm_num [xcW, num, dn, Bounds.code, xcD]
  · obtain ⟨a, b, c⟩ := z
    cases a <;> cases b <;> simp_all [xcY, num, xcD, xcP]
  · unfold armMean
    simp only [ex_pop]
    norm_num [xcW, xcY0, inArm, num, xcD, xcP]

theorem xc_att : armATT (draws Coins) draw xcY xcY0 xcW xcD xcP = 5 := by
  unfold armATT armMean
  simp only [ex_pop]
  norm_num [xcW, xcY, inArm, num, xcD, xcP]

example (m : CrossMeth) : ∀ᵐ ω ∂draws Coins, ∃ att se : ℕ → ℝ, (∀ᶠ n in atTop, ∃ ci, crossReport .code m xcY xcW xcD xcP draw n ω = some (att n, se n, ci)) ∧
    Tendsto att atTop (𝓝 5) := by
  filter_upwards [C269_limit (m := m) draws_sampling xc_trends] with ω ⟨a, s, h1, h2, _⟩
  exact ⟨a, s, h1, xc_att ▸ h2⟩

example (m : CrossMeth) : ∃ p : ℝ, Tendsto (fun n => (draws Coins).real {ω | ∃ att se lo hi, crossReport .code m xcY xcW xcD xcP draw n ω = some (att, se, (lo, hi)) ∧
    lo ≤ 5 ∧ 5 ≤ hi}) atTop (𝓝 p) ∧ 950 / 1000 < p ∧ p < 95002 / 100000 := by
  have := C269_coverage (m := m) draws_sampling xc_trends (by
    have h : armInfluence (draws Coins) draw xcY xcW xcD xcP (false, false, false) = -32 / 9 := by
      unfold armInfluence armMean
      simp only [ex_pop]
      norm_num [xcW, xcY, xcY0, inArm, num, xcD, xcP]
    rw [ex_pop]
    have h2 : 0 < armInfluence (draws Coins) draw xcY xcW xcD xcP (false, false, false) ^ 2 := by
      rw [h]; norm_num
    positivity)
  rwa [xc_att] at this

end Verif.Asym
