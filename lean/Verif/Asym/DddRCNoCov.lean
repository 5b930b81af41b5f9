import Verif.Asym.DddNoCov
import Verif.Asym.CrossSection
import Verif.Ident.DddRC

set_option linter.unusedSectionVars false
set_option linter.unusedSimpArgs false

/-!
# C280: triple differences on repeated cross-sections without covariates, by any method, in large samples
-/

namespace Verif.Asym

open MeasureTheory ProbabilityTheory Filter Topology Verif.Honest Verif.DR Verif.Triple

variable {Ω 𝓧 : Type*} [MeasurableSpace Ω] [MeasurableSpace 𝓧]

/-! ## Specification -/

/-- Indicator of a subgroup and a period. -/
def inOct (sg : 𝓧 → ℕ) (post : 𝓧 → Bool) (c : ℕ) (b : Bool) (z : 𝓧) : ℝ := if sg z = c ∧ post z = b then 1 else 0

/-- Weighted population mean of an outcome in a subgroup and a period. -/
noncomputable def octMean (P : Measure Ω) (X : ℕ → Ω → 𝓧) (sg : 𝓧 → ℕ) (post : 𝓧 → Bool) (w y : 𝓧 → ℝ) (c : ℕ) (b : Bool) : ℝ :=
  (pop P X fun z => w z * inOct sg post c b z * y z) / pop P X fun z => w z * inOct sg post c b z

/-- The mean effect on the observations of subgroup 4 in the second period: outcome `y` less what it would have been without treatment, `u`. -/
noncomputable def octATT (P : Measure Ω) (X : ℕ → Ω → 𝓧) (sg : 𝓧 → ℕ) (post : 𝓧 → Bool) (w y u : 𝓧 → ℝ) : ℝ :=
  octMean P X sg post w (fun z => y z - u z) 4 true

/-- Change over time of the mean outcome of a subgroup. -/
noncomputable def octTrend (P : Measure Ω) (X : ℕ → Ω → 𝓧) (sg : 𝓧 → ℕ) (post : 𝓧 → Bool) (w y : 𝓧 → ℝ) (c : ℕ) : ℝ :=
  octMean P X sg post w y c true - octMean P X sg post w y c false

/-- The population: weight in each of the eight cells, finite second moments, no effect outside the treated cell, the trend of the untreated outcome of subgroup 4 is that of 3
plus that of 2 less that of 1, and in each comparison the treated share is below the trimming level. -/
structure CrossTriple (P : Measure Ω) (X : ℕ → Ω → 𝓧) (sg : 𝓧 → ℕ) (post : 𝓧 → Bool) (w y u : 𝓧 → ℝ) (level : ℝ) : Prop where
  subgroup : ∀ z, sg z ∈ [1, 2, 3, 4]
  nonneg : ∀ z, 0 ≤ w z
  measSg : Measurable sg
  measPost : Measurable post
  sqW : SqInt P X w
  sqY : SqInt P X fun z => w z * y z
  intU : Integrable (fun ω => w (X 0 ω) * inOct sg post 4 true (X 0 ω) * u (X 0 ω)) P
  cells : ∀ c ∈ [1, 2, 3, 4], ∀ b, 0 < pop P X fun z => w z * inOct sg post c b z
  untreated : ∀ z, ¬ (sg z = 4 ∧ post z = true) → y z = u z
  trends : octTrend P X sg post w u 4 = octTrend P X sg post w u 3 + octTrend P X sg post w u 2 - octTrend P X sg post w u 1
  share : ∀ c ∈ [1, 2, 3], (pop P X fun z => w z * inSg sg 4 z) < level * ((pop P X fun z => w z * inSg sg 4 z) + pop P X fun z => w z * inSg sg c z)

/-- Influence of an observation on the mean of a cell. -/
noncomputable def octInfluence (P : Measure Ω) (X : ℕ → Ω → 𝓧) (sg : 𝓧 → ℕ) (post : 𝓧 → Bool) (w y : 𝓧 → ℝ) (c : ℕ) (b : Bool) (z : 𝓧) : ℝ :=
  w z * inOct sg post c b z * (y z - octMean P X sg post w y c b) / pop P X fun z => w z * inOct sg post c b z

/-- Influence of an observation on the triple difference of the eight means. -/
noncomputable def crossTriple (P : Measure Ω) (X : ℕ → Ω → 𝓧) (sg : 𝓧 → ℕ) (post : 𝓧 → Bool) (w y : 𝓧 → ℝ) (z : 𝓧) : ℝ :=
  let t := fun c => octInfluence P X sg post w y c true z - octInfluence P X sg post w y c false z
  t 4 - t 3 - t 2 + t 1

/-! ## Model -/

/-- Fits without covariates: least squares by the Gram matrix, `nuisance_rc.py:798-851`, the treated share as score, `nuisance_rc.py:664-703`, any information matrix. -/
noncomputable def plainFitsRC {ι : Type*} [Fintype ι] (sg : ι → ℕ) (hess : ∀ c, (Sub sg c → ℝ) → Unit → Unit → ℝ) : FitsRC sg Unit ℝ :=
  ⟨fun _ => Ident.gramOLS, fun _ => shareLogit, hess, minv⟩

/-- Estimate and influence function of `ddd_rc` without covariates on the first `n` observations, `ddd_rc.py:183-213`, for any `est_method`; `none` stands for an error. -/
noncomputable def plainReportRC (hess : ∀ (n : ℕ) (sg : Fin n → ℕ) (c : ℕ), (Sub sg c → ℝ) → Unit → Unit → ℝ) (m : Est) (hi level : ℝ) (sg : 𝓧 → ℕ) (post : 𝓧 → Bool)
    (y w : 𝓧 → ℝ) (X : ℕ → Ω → 𝓧) (n : ℕ) (ω : Ω) : Option (ℝ × (Fin n → ℝ)) :=
  match dddRC (plainFitsRC (fun i : Fin n => sg (X i ω)) (hess n _)) m hi level (fun i => y (X i ω)) (fun i => post (X i ω)) ones (fun i => w (X i ω)) with
  | .ok r => some r
  | .error _ => none

/-! ## One comparison -/

section
variable {σ : Type*} [Fintype σ] {v y : σ → ℝ} {d post : σ → Bool}

theorem reg_means (hw : FourCells v d post) : regRC d post (fun _ => wavg v (fun i => d i = false ∧ post i = false) y) (fun _ => wavg v (fun i => d i = false ∧ post i = true) y) y v =
    did4 v d post y := by
  have := hw.nonempty
  unfold regRC did4
  have e1 : ∀ b, (fun i => v i * ind d i * perK post b i) = fun i => if d i = true ∧ post i = b then v i else 0 := by
    intro b; funext i
    rw [perK_eq]
    cases h : d i
    · rw [ind_false (b := d) h]; simp
    · rw [ind_true (b := d) h]; by_cases hb : post i = b <;> simp [hb]
  have e2 : (fun i => v i * ind d i) = fun i => ind d i * v i := by funext i; ring
  have hT : DR.mean (fun i => ind d i * v i) ≠ 0 := by
    rw [Ne, mean_eq_zero, sum_ind]; exact hw.arms.treated.ne'
  rw [postK_perK, preK_perK, e1, e1, wmean_ite, wmean_ite, e2, wmean_const _ _ hT]

theorem dr_means (hw : FourCells v d post) {level p : ℝ} (hp : p < level) (hodds : p / (1 - p) ≠ 0) (c0 c1 t0 t1 : ℝ) :
    drRC d (trim level d fun _ => p) post (fun _ => p) (fun _ => c0) (fun _ => c1) (fun _ => t0) (fun _ => t1) y v = did4 v d post y := by
  have := hw.nonempty
  unfold drRC
  rw [tradRC_const hw hp hodds]
  have e0 : (fun i => ind (trim level d (fun _ => p)) i * v i * ind d i) = wTreat d (trim level d (fun _ => p)) v := rfl
  have e1 : (fun i => ind (trim level d (fun _ => p)) i * v i * ind d i * postK post i) = wTreatRC d (trim level d (fun _ => p)) v (perK post true) := rfl
  have e2 : (fun i => ind (trim level d (fun _ => p)) i * v i * ind d i * (1 - postK post i)) = wTreatRC d (trim level d (fun _ => p)) v (perK post false) := rfl
  have hT : DR.mean (fun i => ind d i * v i) ≠ 0 := by
    rw [Ne, mean_eq_zero, sum_ind]; exact hw.arms.treated.ne'
  simp only [hmean_eq_wmean, e0, e1, e2, wTreat_trim, wTreatRC_trim]
  rw [wmean_const _ _ hT, wmean_const _ _ (mean_ite_ne hw true true), wmean_const _ _ hT, wmean_const _ _ (mean_ite_ne hw true false)]
  simp

end

section
variable {ι : Type*} [Fintype ι] {sg : ι → ℕ} {c : ℕ}

/-- In one comparison every method returns the difference in differences of the four cell means, with its influence function. -/
theorem comp_rc_plain (hess : ∀ c, (Sub sg c → ℝ) → Unit → Unit → ℝ) (m : Est) (hi level : ℝ) (hi0 : 0 < hi) (hi1 : hi < 1) (W y : ι → ℝ) (post : ι → Bool)
    (hw : FourCells (onSub sg c W) (pa4 sg c) (onSub sg c post)) (hs : treatedShare (onSub sg c W) (pa4 sg c) < level) :
    compDidRC (plainFitsRC sg hess) m hi level c W ones y post = .ok (did4 (onSub sg c W) (pa4 sg c) (onSub sg c post) (onSub sg c y),
      scatter sg c (DR.NoCov.did4IF (onSub sg c W) (pa4 sg c) (onSub sg c post) (onSub sg c y))) := by
  have hne := hw.nonempty
  have hs0 : 0 < treatedShare (onSub sg c W) (pa4 sg c) := div_pos hw.arms.treated hw.arms.total
  obtain ⟨p, hp⟩ : ∃ p, p = min (treatedShare (onSub sg c W) (pa4 sg c)) hi := ⟨_, rfl⟩
  have hp0 : 0 < p := by rw [hp]; exact lt_min hs0 hi0
  have hp1 : p < 1 := by rw [hp]; exact (min_le_right _ _).trans_lt hi1
  have hpl : p < level := by rw [hp]; exact (min_le_left _ _).trans_lt hs
  have hodds : p / (1 - p) ≠ 0 := (div_pos hp0 (sub_pos.2 hp1)).ne'
  have hkeep : rcKeep (plainFitsRC sg hess) m level c W ones = trim level (pa4 sg c) fun _ => p := by
    funext i
    have h1 : (plainFitsRC sg hess).logit c (onSub sg c W) (pa4 sg c) (onSub sg c ones) i < level := hs
    have h2 : trim level (pa4 sg c) (fun _ => p) i = true := by
      unfold trim
      split_ifs
      · rfl
      · exact decide_eq_true hpl
    rw [h2]
    unfold rcKeep
    split_ifs
    · rfl
    · rfl
    · exact decide_eq_true h1
  have hps : m ≠ .reg → rcPs (plainFitsRC sg hess) m hi c W ones = fun _ => p := by
    intro hm
    funext i
    unfold rcPs
    rw [if_neg hm, hp]
    rfl
  have hones : onSub sg c (ones (ι := ι)) = ones := rfl
  have hfit : ∀ β : Unit → ℝ, fitted (onSub sg c ones) β = fun _ => β () := by
    intro β; funext i; simp [fitted, onSub, ones]
  have hsel : ∀ pre treat, 0 < ∑ i with cellSel (pa4 sg c) (onSub sg c post) pre treat i = true, onSub sg c W i := fun pre treat => by
    rw [sel_sum]
    exact hw.pos _ _
  have hols : ∀ pre treat, NormalEq (onSub sg c W) (cellSel (pa4 sg c) (onSub sg c post) pre treat) ones (onSub sg c y)
      (Ident.gramOLS (onSub sg c W) (cellSel (pa4 sg c) (onSub sg c post) pre treat) ones (onSub sg c y)) := fun pre treat =>
    (Ident.gramOLS_fits (onSub sg c W) _ (ones (ι := Sub sg c)) (rank_sel (hsel pre treat))).solves _
  have hout : ∀ pre treat, m ≠ .ipw → rcOut (plainFitsRC sg hess) m c W ones y post pre treat =
      fitted ones (Ident.gramOLS (onSub sg c W) (cellSel (pa4 sg c) (onSub sg c post) pre treat) ones (onSub sg c y)) := fun pre treat hm => by
    unfold rcOut
    rw [if_neg hm]
    rfl
  have hs0' : cellSel (pa4 sg c) (onSub sg c post) true false = fun i => !pa4 sg c i && !onSub sg c post i := by
    funext i
    rw [Bool.eq_iff_iff, sel_iff]
    cases pa4 sg c i <;> cases onSub sg c post i <;> simp
  have hs1' : cellSel (pa4 sg c) (onSub sg c post) false false = fun i => !pa4 sg c i && onSub sg c post i := by
    funext i
    rw [Bool.eq_iff_iff, sel_iff]
    cases pa4 sg c i <;> cases onSub sg c post i <;> simp
  have hcell : ∀ a b : Bool, DR.mean (fun i => onSub sg c W i * if pa4 sg c i = a ∧ onSub sg c post i = b then 1 else 0) ≠ 0 := fun a b => by
    refine mean_sel (fun i => decide (pa4 sg c i = a ∧ onSub sg c post i = b)) _ (fun i => by simp) ?_
    simpa using hw.pos a b
  have hgram : ∀ pre : Bool, IsGramInv (fun i => onSub sg c W i * ((1 - ind (pa4 sg c) i) * if pre then preK (onSub sg c post) i else postK (onSub sg c post) i))
      (ones (ι := Sub sg c)) (rcM (plainFitsRC sg hess) c W ones post pre false) := by
    intro pre
    have hg := gram_one (v := fun i => onSub sg c W i * ((1 - ind (pa4 sg c) i) * if pre then preK (onSub sg c post) i else postK (onSub sg c post) i)) (by
      have := hcell false (!pre)
      convert this using 4 with i
      simp only [ind, preK, postK]
      cases pre <;> cases pa4 sg c i <;> cases onSub sg c post i <;> simp)
    have e : rcM (plainFitsRC sg hess) c W ones post pre false =
        gramInv (fun i => onSub sg c W i * ((1 - ind (pa4 sg c) i) * if pre then preK (onSub sg c post) i else postK (onSub sg c post) i)) ones := by
      unfold rcM gramInv cellGram
      rfl
    rw [e]
    exact hg
  have hF : DR.NoCov.RCFit (onSub sg c W) (pa4 sg c) (trim level (pa4 sg c) fun _ => p) (onSub sg c post) (onSub sg c y) ones
      (Ident.gramOLS (onSub sg c W) (cellSel (pa4 sg c) (onSub sg c post) true false) ones (onSub sg c y))
      (Ident.gramOLS (onSub sg c W) (cellSel (pa4 sg c) (onSub sg c post) false false) ones (onSub sg c y)) (fun _ => p) p
      (rcM (plainFitsRC sg hess) c W ones post true false) (rcM (plainFitsRC sg hess) c W ones post false false) := by
    refine ⟨fun _ => rfl, hcell, mean_sel (pa4 sg c) _ (fun i => rfl) hw.arms.treated, hs0' ▸ hols true false, hs1' ▸ hols false false, fun _ => rfl, hp0.ne', hp1.ne,
      fun i => ?_, hgram true, hgram false⟩
    unfold trim
    split_ifs
    · rfl
    · exact decide_eq_true hpl
  have hguard : rcGuard m (pa4 sg c) (rcKeep (plainFitsRC sg hess) m level c W ones) (onSub sg c post) (rcPs (plainFitsRC sg hess) m hi c W ones) (onSub sg c W) = none := by
    unfold rcGuard
    rw [hkeep, postK_perK, preK_perK, wTreatRC_trim, wTreatRC_trim, if_neg (not_or.2 ⟨mean_ite_ne hw _ _, mean_ite_ne hw _ _⟩)]
    by_cases hm : m = .reg
    · simp [hm]
    · rw [hps hm, wContRC_const hpl, wContRC_const hpl, DR.NoCov.mean_mul, DR.NoCov.mean_mul, if_neg]
      rintro ⟨-, h | h⟩
      · exact mul_ne_zero hodds (mean_ite_ne hw false false) h
      · exact mul_ne_zero hodds (mean_ite_ne hw false true) h
  unfold compDidRC
  rw [hguard]
  dsimp only
  have hest : compAttRC (plainFitsRC sg hess) m hi level c W ones y post = did4 (onSub sg c W) (pa4 sg c) (onSub sg c post) (onSub sg c y) := by
    unfold compAttRC
    cases m with
    | reg =>
      dsimp only
      have hc' : ∀ pre : Bool, fitted ones (Ident.gramOLS (onSub sg c W) (cellSel (pa4 sg c) (onSub sg c post) pre false) ones (onSub sg c y)) =
          fun _ : Sub sg c => wavg (onSub sg c W) (fun i => pa4 sg c i = false ∧ onSub sg c post i = !pre) (onSub sg c y) := by
        intro pre
        funext i
        rw [intercept_fit _ _ _ (fun _ => rfl) _ _ (hols pre false) (hsel pre false).ne', wavg_congr _ _ (sel_iff pre false)]
      rw [hout _ _ (by decide), hout _ _ (by decide), hc', hc']
      exact reg_means hw
    | ipw =>
      dsimp only
      rw [hkeep, hps (by decide)]
      exact ipwRC_const hw hpl hodds _
    | dr =>
      dsimp only
      rw [hkeep, hps (by decide)]
      simp only [fun pre treat => hout pre treat (by decide)]
      rw [← hones, hfit, hfit, hfit, hfit]
      exact dr_means hw hpl hodds _ _ _ _
  have hinf : compIFRC (plainFitsRC sg hess) m hi level c W ones y post = DR.NoCov.did4IF (onSub sg c W) (pa4 sg c) (onSub sg c post) (onSub sg c y) := by
    funext i
    unfold compIFRC
    cases m with
    | reg =>
      dsimp only
      rw [hout _ _ (by decide), hout _ _ (by decide)]
      exact DR.NoCov.C263_reg_rc hF i
    | ipw =>
      dsimp only
      rw [hkeep, hps (by decide)]
      exact DR.NoCov.C263_ipw_rc hF _ i
    | dr =>
      dsimp only
      rw [hkeep, hps (by decide)]
      simp only [fun pre treat => hout pre treat (by decide)]
      exact DR.NoCov.C263_dr_rc hF _ _ _ i
  rw [hest, hinf]

end

/-! ## The whole sample -/

section
variable {ι : Type*} [Fintype ι] {sg : ι → ℕ}

theorem sub_sum (c : ℕ) (hc : c ≠ 4) (g : ι → ℝ) (post : ι → Bool) (a b : Bool) :
    ∑ i : Sub sg c with pa4 sg c i = a ∧ onSub sg c post i = b, g i.1 = ∑ i with sg i = (if a then 4 else c) ∧ post i = b, g i := by
  have h := Ident.sub_cell (sg := sg) c hc g post (!b) a
  rw [sel_sum, Bool.not_not] at h
  exact h

theorem sub_arm (c : ℕ) (hc : c ≠ 4) (g : ι → ℝ) (a : Bool) : ∑ i : Sub sg c with pa4 sg c i = a, g i.1 = ∑ i with sg i = (if a then 4 else c), g i := by
  have h := sub_sum (sg := sg) c hc g (fun _ => true) a true
  simpa [onSub] using h

theorem sub_wavg (c : ℕ) (hc : c ≠ 4) (w y : ι → ℝ) (post : ι → Bool) (a b : Bool) :
    wavg (onSub sg c w) (fun i => pa4 sg c i = a ∧ onSub sg c post i = b) (onSub sg c y) = wavg w (fun i => sg i = (if a then 4 else c) ∧ post i = b) y := by
  have h1 := sub_sum (sg := sg) c hc w post a b
  have h2 := sub_sum (sg := sg) c hc (fun i => w i * y i) post a b
  unfold wavg
  rw [← h1, ← h2]
  rfl

theorem sub_avgIF (c : ℕ) (hc : c ≠ 4) (w y : ι → ℝ) (post : ι → Bool) (a b : Bool) (i : ι) :
    ratio sg c * scatter sg c (DR.NoCov.avgIF (onSub sg c w) (fun i => pa4 sg c i = a ∧ onSub sg c post i = b) (onSub sg c y)) i =
      DR.NoCov.avgIF w (fun i => sg i = (if a then 4 else c) ∧ post i = b) y i := by
  unfold scatter
  by_cases h : sg i = 4 ∨ sg i = c
  · have hpos : 0 < Fintype.card (Sub sg c) := Fintype.card_pos_iff.2 ⟨⟨i, h⟩⟩
    have hne : (Fintype.card (Sub sg c) : ℝ) ≠ 0 := by exact_mod_cast hpos.ne'
    have hcond : (pa4 sg c ⟨i, h⟩ = a ∧ onSub sg c post ⟨i, h⟩ = b) ↔ (sg i = (if a then 4 else c) ∧ post i = b) := by
      unfold pa4 onSub
      cases a
      · simp only [decide_eq_false_iff_not, Bool.false_eq_true, if_false]
        rcases h with h | h
        · simp [h, hc.symm]
        · simp [h, hc]
      · simp
    rw [dif_pos h]
    unfold ratio DR.NoCov.avgIF
    rw [if_pos hpos]
    by_cases h2 : pa4 sg c ⟨i, h⟩ = a ∧ onSub sg c post ⟨i, h⟩ = b
    · rw [if_pos h2, if_pos (hcond.1 h2), sub_wavg c hc, show (∑ j : Sub sg c with pa4 sg c j = a ∧ onSub sg c post j = b, onSub sg c w j) = _ from sub_sum c hc w post a b]
      change (Fintype.card ι : ℝ) / (Fintype.card (Sub sg c) : ℝ) * ((Fintype.card (Sub sg c) : ℝ) * (w i / _) * (y i - _)) = _
      field_simp
    · rw [if_neg h2, if_neg fun h3 => h2 (hcond.2 h3), mul_zero]
  · rw [dif_neg h, mul_zero]
    unfold DR.NoCov.avgIF
    rw [if_neg]
    rintro ⟨h1, -⟩
    cases a
    · exact h (.inr (by simpa using h1))
    · exact h (.inl (by simpa using h1))

/-- Change over time of the weighted mean in a subgroup. -/
noncomputable def octDiff (sg : ι → ℕ) (post : ι → Bool) (w y : ι → ℝ) (c : ℕ) : ℝ :=
  wavg w (fun i => sg i = c ∧ post i = true) y - wavg w (fun i => sg i = c ∧ post i = false) y

/-- Influence of an observation on it. -/
noncomputable def octDiffIF (sg : ι → ℕ) (post : ι → Bool) (w y : ι → ℝ) (c : ℕ) (i : ι) : ℝ :=
  DR.NoCov.avgIF w (fun i => sg i = c ∧ post i = true) y i - DR.NoCov.avgIF w (fun i => sg i = c ∧ post i = false) y i

theorem scatter_did4 (c : ℕ) (hc : c ≠ 4) (w y : ι → ℝ) (post : ι → Bool) (i : ι) :
    ratio sg c * scatter sg c (DR.NoCov.did4IF (onSub sg c w) (pa4 sg c) (onSub sg c post) (onSub sg c y)) i = octDiffIF sg post w y 4 i - octDiffIF sg post w y c i := by
  have e : scatter sg c (DR.NoCov.did4IF (onSub sg c w) (pa4 sg c) (onSub sg c post) (onSub sg c y)) i =
      (scatter sg c (DR.NoCov.avgIF (onSub sg c w) (fun i => pa4 sg c i = true ∧ onSub sg c post i = true) (onSub sg c y)) i -
        scatter sg c (DR.NoCov.avgIF (onSub sg c w) (fun i => pa4 sg c i = true ∧ onSub sg c post i = false) (onSub sg c y)) i) -
      (scatter sg c (DR.NoCov.avgIF (onSub sg c w) (fun i => pa4 sg c i = false ∧ onSub sg c post i = true) (onSub sg c y)) i -
        scatter sg c (DR.NoCov.avgIF (onSub sg c w) (fun i => pa4 sg c i = false ∧ onSub sg c post i = false) (onSub sg c y)) i) := by
    unfold scatter
    split_ifs
    · rfl
    · simp
  rw [e, mul_sub, mul_sub, mul_sub, sub_avgIF c hc, sub_avgIF c hc, sub_avgIF c hc, sub_avgIF c hc]
  rfl

/-- **C280 (sample).**  Whatever the method: when every subgroup has weight in both periods and in each comparison the treated share is below the trimming level, `ddd_rc`
without covariates returns the triple difference of the eight weighted means and its influence function. -/
theorem C280_sample (hess : ∀ c, (Sub sg c → ℝ) → Unit → Unit → ℝ) (m : Est) (hi level : ℝ) (hi0 : 0 < hi) (hi1 : hi < 1) (w y : ι → ℝ) (post : ι → Bool)
    (hs : ∀ i, sg i ∈ [1, 2, 3, 4]) (hw : ∀ i, 0 ≤ w i) (h8 : Ident.EightCells w sg post)
    (hl : ∀ c ∈ [1, 2, 3], ∑ i with sg i = 4, w i < level * (∑ i with sg i = 4, w i + ∑ i with sg i = c, w i)) :
    dddRC (plainFitsRC sg hess) m hi level y post ones w = .ok
      (octDiff sg post w y 4 - octDiff sg post w y 3 - octDiff sg post w y 2 + octDiff sg post w y 1,
        fun i => octDiffIF sg post w y 4 i - octDiffIF sg post w y 3 i - octDiffIF sg post w y 2 i + octDiffIF sg post w y 1 i) := by
  have hc4 : ∀ c ∈ [1, 2, 3], c ≠ 4 := by rintro c h rfl; simp at h
  have h4 : ∃ i, sg i = 4 := by
    by_contra hcon
    push Not at hcon
    have := h8 4 (by simp) true
    rw [Finset.filter_false_of_mem fun i _ h => hcon i h.1] at this
    simp at this
  have hp4 : 0 < ∑ i with sg i = 4, w i := by
    refine lt_of_lt_of_le (h8 4 (by simp) true) (Finset.sum_le_sum_of_subset_of_nonneg ?_ fun i _ _ => hw i)
    intro i hi
    simp only [Finset.mem_filter, Finset.mem_univ, true_and] at hi ⊢
    exact hi.1
  have hmw : 0 < DR.mean w := normalize_pos hw hp4
  have key : ∀ c ∈ [1, 2, 3], ∃ f, compDidRC (plainFitsRC sg hess) m hi level c (DR.normalize w) ones y post =
      .ok (octDiff sg post w y 4 - octDiff sg post w y c, f) ∧ ∀ i, ratio sg c * f i = octDiffIF sg post w y 4 i - octDiffIF sg post w y c i := by
    intro c hcm
    have hc := hc4 c hcm
    have hcm' : c ∈ [1, 2, 3, 4] := List.mem_of_mem_dropLast (l := [1, 2, 3, 4]) hcm
    have hsum : ∀ S : Finset ι, ∑ i ∈ S, DR.normalize w i = (∑ i ∈ S, w i) / DR.mean w := fun S => by rw [Finset.sum_div]; rfl
    have hF : FourCells (onSub sg c (DR.normalize w)) (pa4 sg c) (onSub sg c post) := by
      refine ⟨fun i => div_nonneg (hw _) hmw.le, fun a b => ?_⟩
      rw [show (∑ i : Sub sg c with pa4 sg c i = a ∧ onSub sg c post i = b, onSub sg c (DR.normalize w) i) = _ from sub_sum c hc _ post a b, hsum]
      refine div_pos (h8 _ ?_ _) hmw
      cases a
      · simpa using hcm'
      · simp
    have hsh : treatedShare (onSub sg c (DR.normalize w)) (pa4 sg c) < level := by
      unfold treatedShare
      have e1 := sub_arm (sg := sg) c hc (DR.normalize w) true
      have e0 := sub_arm (sg := sg) c hc (DR.normalize w) false
      rw [sum_split (pa4 sg c)]
      rw [show (∑ i : Sub sg c with pa4 sg c i = true, onSub sg c (DR.normalize w) i) = _ from e1,
        show (∑ i : Sub sg c with pa4 sg c i = false, onSub sg c (DR.normalize w) i) = _ from e0]
      simp only [if_true, Bool.false_eq_true, if_false]
      rw [hsum, hsum, ← add_div, div_div_div_cancel_right₀ hmw.ne', div_lt_iff₀]
      · exact hl c hcm
      · exact add_pos_of_pos_of_nonneg hp4 (Finset.sum_nonneg fun i _ => hw i)
    refine ⟨scatter sg c (DR.NoCov.did4IF (onSub sg c (DR.normalize w)) (pa4 sg c) (onSub sg c post) (onSub sg c y)),
      (comp_rc_plain hess m hi level hi0 hi1 (DR.normalize w) y post hF hsh).trans ?_, fun i => ?_⟩
    · congr 2
      unfold did4 octDiff
      simp only [sub_wavg c hc, if_true, Bool.false_eq_true, if_false, wavg_normalize _ _ hmw.ne']
    · rw [scatter_did4 c hc]
      unfold octDiffIF
      have hn : ∀ (S : ι → Prop) [DecidablePred S], DR.NoCov.avgIF (DR.normalize w) S y i = DR.NoCov.avgIF w S y i := fun S _ => avgIF_scale hmw.ne' S i
      simp only [hn]
  obtain ⟨f3, a3, b3⟩ := key 3 (by simp)
  obtain ⟨f2, a2, b2⟩ := key 2 (by simp)
  obtain ⟨f1, a1, b1⟩ := key 1 (by simp)
  unfold dddRC
  rw [if_neg (by push Not; exact hw), if_neg (by push Not; exact hs), if_neg (not_not.2 h4)]
  dsimp only
  rw [a3, a2, a1]
  simp only [combine3, Bind.bind, Except.bind, pure, Except.pure, b3, b2, b1, Except.ok.injEq, Prod.mk.injEq]
  refine ⟨by ring, funext fun i => by ring⟩

/-- All methods agree. -/
theorem C280_methods_agree (hess hess' : ∀ c, (Sub sg c → ℝ) → Unit → Unit → ℝ) (m m' : Est) (hi level : ℝ) (hi0 : 0 < hi) (hi1 : hi < 1) (w y : ι → ℝ) (post : ι → Bool)
    (hs : ∀ i, sg i ∈ [1, 2, 3, 4]) (hw : ∀ i, 0 ≤ w i) (h8 : Ident.EightCells w sg post)
    (hl : ∀ c ∈ [1, 2, 3], ∑ i with sg i = 4, w i < level * (∑ i with sg i = 4, w i + ∑ i with sg i = c, w i)) :
    dddRC (plainFitsRC sg hess) m hi level y post ones w = dddRC (plainFitsRC sg hess') m' hi level y post ones w := by
  rw [C280_sample hess m hi level hi0 hi1 w y post hs hw h8 hl, C280_sample hess' m' hi level hi0 hi1 w y post hs hw h8 hl]

/-- The sixteen observations of C257. -/
example : (∀ i, Ident.uS i ∈ [1, 2, 3, 4]) ∧ Ident.EightCells (fun _ => 1) Ident.uS Ident.uPost ∧
    ∀ c ∈ [1, 2, 3], ∑ i with Ident.uS i = 4, (1 : ℝ) < 995 / 1000 * (∑ i with Ident.uS i = 4, (1 : ℝ) + ∑ i with Ident.uS i = c, (1 : ℝ)) := by
  refine ⟨by decide, Ident.u_cells, fun c hc => ?_⟩
  simp only [Finset.sum_const, nsmul_eq_mul, mul_one]
  have h4 : (Finset.univ.filter fun i : Fin 16 => Ident.uS i = 4).card = 4 := by decide
  have hk : (Finset.univ.filter fun i : Fin 16 => Ident.uS i = c).card = 4 := by
    revert c
    decide
  rw [h4, hk]
  norm_num

end

/-! ## The population -/

/-- Numbers of the cells and their signs. -/
def octNo (k : Fin 4 × Bool) : ℕ := k.1 + 1
def octSign (k : Fin 4 × Bool) : ℝ := (if k.1 = 0 ∨ k.1 = 3 then 1 else -1) * if k.2 then 1 else -1

theorem octNo_mem (k : Fin 4 × Bool) : octNo k ∈ [1, 2, 3, 4] := by
  obtain ⟨k, b⟩ := k
  fin_cases k <;> simp [octNo]

theorem oct_sum (f : ℕ → Bool → ℝ) : ∑ k, octSign k * f (octNo k) k.2 =
    (f 4 true - f 4 false) - (f 3 true - f 3 false) - (f 2 true - f 2 false) + (f 1 true - f 1 false) := by
  rw [Fintype.sum_prod_type, Fin.sum_univ_four]
  simp only [Fintype.sum_bool, octSign, octNo]
  simp
  ring

/-- Samples with weight in the eight cells and, in each comparison, a treated share below the trimming level. -/
def oGood (sg : 𝓧 → ℕ) (post : 𝓧 → Bool) (w : 𝓧 → ℝ) (level : ℝ) (X : ℕ → Ω → 𝓧) (n : ℕ) : Set Ω :=
  (⋂ k : Fin 4 × Bool, {ω | 0 < avg X (fun z => w z * inOct sg post (octNo k) k.2 z) n ω}) ∩
    ⋂ k : Fin 3, {ω | avg X (fun z => w z * inSg sg 4 z) n ω < level * (avg X (fun z => w z * inSg sg 4 z) n ω + avg X (fun z => w z * inSg sg (grp k) z) n ω)}

theorem oct_avg (X : ℕ → Ω → 𝓧) (sg : 𝓧 → ℕ) (post : 𝓧 → Bool) (w y : 𝓧 → ℝ) (c : ℕ) (b : Bool) {n : ℕ} {ω : Ω} (h : 0 < n) :
    wavg (fun i : Fin n => w (X i ω)) (fun i => sg (X i ω) = c ∧ post (X i ω) = b) (fun i => y (X i ω)) =
      avg X (fun z => w z * inOct sg post c b z * y z) n ω / avg X (fun z => w z * inOct sg post c b z) n ω ∧
    ∀ i : Fin n, DR.NoCov.avgIF (fun i : Fin n => w (X i ω)) (fun i => sg (X i ω) = c ∧ post (X i ω) = b) (fun i => y (X i ω)) i =
      w (X i ω) * inOct sg post c b (X i ω) * (y (X i ω) - avg X (fun z => w z * inOct sg post c b z * y z) n ω / avg X (fun z => w z * inOct sg post c b z) n ω) /
        avg X (fun z => w z * inOct sg post c b z) n ω := by
  have hn : (n : ℝ) ≠ 0 := by exact_mod_cast h.ne'
  have e1 : ∀ f : 𝓧 → ℝ, avg X f n ω = (∑ i : Fin n, f (X i ω)) / n := fun f => by
    unfold avg
    rw [Finset.sum_range]
  have e2 : ∑ i : Fin n with sg (X i.1 ω) = c ∧ post (X i.1 ω) = b, w (X i ω) = ∑ i : Fin n, w (X i ω) * inOct sg post c b (X i ω) := by
    rw [Finset.sum_filter]
    refine Finset.sum_congr rfl fun i _ => ?_
    unfold inOct
    split_ifs <;> simp
  have e3 : ∑ i : Fin n with sg (X i.1 ω) = c ∧ post (X i.1 ω) = b, w (X i ω) * y (X i ω) = ∑ i : Fin n, w (X i ω) * inOct sg post c b (X i ω) * y (X i ω) := by
    rw [Finset.sum_filter]
    refine Finset.sum_congr rfl fun i _ => ?_
    unfold inOct
    split_ifs <;> simp
  have e4 : wavg (fun i : Fin n => w (X i ω)) (fun i => sg (X i ω) = c ∧ post (X i ω) = b) (fun i => y (X i ω)) =
      avg X (fun z => w z * inOct sg post c b z * y z) n ω / avg X (fun z => w z * inOct sg post c b z) n ω := by
    unfold wavg
    rw [e2, e3, e1, e1, div_div_div_cancel_right₀ hn]
  refine ⟨e4, fun i => ?_⟩
  unfold DR.NoCov.avgIF
  rw [e4, e2, e1 fun z => w z * inOct sg post c b z, Fintype.card_fin]
  generalize (avg X (fun z => w z * inOct sg post c b z * y z) n ω / ((∑ i : Fin n, w (X i ω) * inOct sg post c b (X i ω)) / n)) = q
  generalize (∑ i : Fin n, w (X i ω) * inOct sg post c b (X i ω)) = r
  unfold inOct
  split_ifs with hc
  · rw [div_div_eq_mul_div]
    ring
  · simp

/-- On good samples the report is the triple difference of the eight sample means. -/
theorem octReport_eq {hess : ∀ (n : ℕ) (sg : Fin n → ℕ) (c : ℕ), (Sub sg c → ℝ) → Unit → Unit → ℝ} {m : Est} {hi level : ℝ} (hi0 : 0 < hi) (hi1 : hi < 1) {sg : 𝓧 → ℕ}
    {post : 𝓧 → Bool} {y w : 𝓧 → ℝ} {X : ℕ → Ω → 𝓧} {n : ℕ} {ω : Ω} (hs : ∀ z, sg z ∈ [1, 2, 3, 4]) (hw : ∀ z, 0 ≤ w z) (h : ω ∈ oGood sg post w level X n) :
    plainReportRC hess m hi level sg post y w X n ω = some
      (∑ k, octSign k * (avg X (fun z => w z * inOct sg post (octNo k) k.2 z * y z) n ω / avg X (fun z => w z * inOct sg post (octNo k) k.2 z) n ω),
        fun (i : Fin n) => ∑ k, octSign k * (w (X i ω) * inOct sg post (octNo k) k.2 (X i ω) *
          (y (X i ω) - avg X (fun z => w z * inOct sg post (octNo k) k.2 z * y z) n ω / avg X (fun z => w z * inOct sg post (octNo k) k.2 z) n ω) /
            avg X (fun z => w z * inOct sg post (octNo k) k.2 z) n ω)) := by
  obtain ⟨h1, h2⟩ := h
  rw [Set.mem_iInter] at h1 h2
  have hn : 0 < n := by
    rcases Nat.eq_zero_or_pos n with rfl | h
    · have := h1 (0, true)
      simp [avg] at this
    · exact h
  have hn' : (0 : ℝ) < n := by exact_mod_cast hn
  have hA : ∀ f : 𝓧 → ℝ, avg X f n ω = (∑ i : Fin n, f (X i ω)) / n := fun f => by
    unfold avg
    rw [Finset.sum_range]
  have e1 : ∀ c b, ∑ i : Fin n with sg (X i.1 ω) = c ∧ post (X i.1 ω) = b, w (X i ω) = ∑ i : Fin n, w (X i ω) * inOct sg post c b (X i ω) := fun c b => by
    rw [Finset.sum_filter]
    refine Finset.sum_congr rfl fun i _ => ?_
    unfold inOct
    split_ifs <;> simp
  have e2 : ∀ c, ∑ i : Fin n with sg (X i.1 ω) = c, w (X i ω) = ∑ i : Fin n, w (X i ω) * inSg sg c (X i ω) := fun c => by
    rw [Finset.sum_filter]
    refine Finset.sum_congr rfl fun i _ => ?_
    unfold inSg
    split_ifs <;> simp
  have h8 : Ident.EightCells (fun i : Fin n => w (X i ω)) (fun i => sg (X i ω)) fun i => post (X i ω) := by
    intro c hc b
    rw [e1]
    have key : ∀ k : Fin 4 × Bool, 0 < ∑ i : Fin n, w (X i ω) * inOct sg post (octNo k) k.2 (X i ω) := fun k => by
      have := h1 k
      rw [Set.mem_ofPred_eq, hA] at this
      exact (div_pos_iff_of_pos_right hn').1 this
    simp only [List.mem_cons, List.not_mem_nil, or_false] at hc
    rcases hc with rfl | rfl | rfl | rfl
    exacts [key (0, b), key (1, b), key (2, b), key (3, b)]
  have hl : ∀ c ∈ [1, 2, 3], ∑ i : Fin n with sg (X i.1 ω) = 4, w (X i ω) <
      level * (∑ i : Fin n with sg (X i.1 ω) = 4, w (X i ω) + ∑ i : Fin n with sg (X i.1 ω) = c, w (X i ω)) := by
    intro c hc
    have key : ∀ k : Fin 3, ∑ i : Fin n with sg (X i.1 ω) = 4, w (X i ω) <
        level * (∑ i : Fin n with sg (X i.1 ω) = 4, w (X i ω) + ∑ i : Fin n with sg (X i.1 ω) = grp k, w (X i ω)) := fun k => by
      have := h2 k
      rw [Set.mem_ofPred_eq, hA, hA, ← add_div, ← mul_div_assoc, div_lt_div_iff_of_pos_right hn'] at this
      rw [e2, e2]
      exact this
    simp only [List.mem_cons, List.not_mem_nil, or_false] at hc
    rcases hc with rfl | rfl | rfl
    exacts [key 2, key 1, key 0]
  unfold plainReportRC
  rw [C280_sample (hess n _) m hi level hi0 hi1 (fun i : Fin n => w (X i ω)) (fun i => y (X i ω)) (fun i => post (X i ω)) (fun i => hs _) (fun i => hw _) h8 hl]
  simp only [Option.some.injEq, Prod.mk.injEq]
  refine ⟨?_, funext fun i => ?_⟩
  · rw [oct_sum fun c b => avg X (fun z => w z * inOct sg post c b z * y z) n ω / avg X (fun z => w z * inOct sg post c b z) n ω]
    unfold octDiff
    simp only [(oct_avg X sg post w y _ _ hn).1]
  · rw [oct_sum fun c b => w (X i ω) * inOct sg post c b (X i ω) * (y (X i ω) - avg X (fun z => w z * inOct sg post c b z * y z) n ω /
      avg X (fun z => w z * inOct sg post c b z) n ω) / avg X (fun z => w z * inOct sg post c b z) n ω]
    unfold octDiffIF
    simp only [(oct_avg X sg post w y _ _ hn).2]

section
variable {P : Measure Ω} [IsProbabilityMeasure P] {X : ℕ → Ω → 𝓧} (hX : Sampling P X) {sg : 𝓧 → ℕ} {post : 𝓧 → Bool} {y u w : 𝓧 → ℝ} {level : ℝ}
  (hC : CrossTriple P X sg post w y u level)
include hC

theorem oct_meas (c : ℕ) (b : Bool) : Measurable (inOct sg post c b) :=
  Measurable.ite ((hC.measSg (MeasurableSet.of_discrete (s := {k : ℕ | k = c}))).inter (measurableSet_eq_fun hC.measPost measurable_const)) measurable_const measurable_const

include hX

theorem oct_sq (c : ℕ) (b : Bool) : SqInt P X (fun z => w z * inOct sg post c b z) ∧ SqInt P X fun z => w z * inOct sg post c b z * y z := by
  have hb : ∀ z, |inOct sg post c b z| ≤ 1 := fun z => by unfold inOct; split_ifs <;> norm_num
  refine ⟨hC.sqW.mul_le (hX.aemeas 0) (oct_meas hC c b) hb, ?_⟩
  have := hC.sqY.mul_le (hX.aemeas 0) (oct_meas hC c b) hb
  exact (funext fun z => by ring : (fun z => w z * y z * inOct sg post c b z) = fun z => w z * inOct sg post c b z * y z) ▸ this

theorem oGood_ok : (∀ n, NullMeasurableSet (oGood sg post w level X n) P) ∧ ∀ᵐ ω ∂P, ∀ᶠ n in atTop, ω ∈ oGood sg post w level X n := by
  have s1 : ∀ c, SqInt P X fun z => w z * inSg sg c z := fun c => hC.sqW.mul_le (hX.aemeas 0)
    (Measurable.ite (hC.measSg (MeasurableSet.of_discrete (s := {k : ℕ | k = c}))) measurable_const measurable_const) fun z => by unfold inSg; split_ifs <;> norm_num
  constructor
  · intro n
    exact (NullMeasurableSet.iInter fun k : Fin 4 × Bool => nullMeasurableSet_lt aemeasurable_const (avg_aemeas hX (oct_sq hX hC _ _).1.1 n)).inter
      (NullMeasurableSet.iInter fun k : Fin 3 => nullMeasurableSet_lt (avg_aemeas hX (s1 _).1 n) (((avg_aemeas hX (s1 _).1 n).add (avg_aemeas hX (s1 _).1 n)).const_mul level))
  · have h0 : ∀ᵐ ω ∂P, ∀ k : Fin 4 × Bool, Tendsto (fun n => avg X (fun z => w z * inOct sg post (octNo k) k.2 z) n ω) atTop
        (𝓝 (pop P X fun z => w z * inOct sg post (octNo k) k.2 z)) := ae_all_iff.2 fun k => lln2 hX (oct_sq hX hC _ _).1
    have h1 : ∀ᵐ ω ∂P, ∀ k : Fin 3, Tendsto (fun n => avg X (fun z => w z * inSg sg (grp k) z) n ω) atTop (𝓝 (pop P X fun z => w z * inSg sg (grp k) z)) :=
      ae_all_iff.2 fun k => lln2 hX (s1 _)
    filter_upwards [h0, h1, lln2 hX (s1 4)] with ω a0 a1 a4
    filter_upwards [eventually_all.2 fun k => (a0 k).eventually_const_lt (hC.cells _ (octNo_mem k) k.2),
      eventually_all.2 fun k => a4.eventually_lt ((a4.add (a1 k)).const_mul level) (hC.share _ (grp_mem k))] with n b0 b1
    exact ⟨Set.mem_iInter.2 b0, Set.mem_iInter.2 b1⟩

/-- Parallel trends identify the effect. -/
theorem oct_att : octATT P X sg post w y u = ∑ k, octSign k * (pop P X (fun z => w z * inOct sg post (octNo k) k.2 z * y z) / pop P X fun z => w z * inOct sg post (octNo k) k.2 z) := by
  have h1 : ∀ c b, ¬ (c = 4 ∧ b = true) → octMean P X sg post w u c b = octMean P X sg post w y c b := fun c b hc => by
    unfold octMean
    congr 2
    funext z
    unfold inOct
    split_ifs with h
    · rw [hC.untreated z fun h' => hc ⟨h.1.symm.trans h'.1, h.2.symm.trans h'.2⟩]
    · simp
  have h2 : octATT P X sg post w y u = octMean P X sg post w y 4 true - octMean P X sg post w u 4 true := by
    unfold octATT octMean
    rw [← sub_div]
    congr 1
    unfold pop
    rw [← integral_sub ((oct_sq hX hC _ _).2.2.integrable (by norm_num)) hC.intU]
    congr 1
    funext ω
    ring
  have h3 := hC.trends
  unfold octTrend at h3
  rw [h1 4 false (by decide), h1 3 true (by decide), h1 3 false (by decide), h1 2 true (by decide), h1 2 false (by decide), h1 1 true (by decide), h1 1 false (by decide)] at h3
  rw [h2, oct_sum fun c b => (pop P X fun z => w z * inOct sg post c b z * y z) / pop P X fun z => w z * inOct sg post c b z]
  change _ = octMean P X sg post w y 4 true - octMean P X sg post w y 4 false - (octMean P X sg post w y 3 true - octMean P X sg post w y 3 false) -
    (octMean P X sg post w y 2 true - octMean P X sg post w y 2 false) + (octMean P X sg post w y 1 true - octMean P X sg post w y 1 false)
  linarith

theorem oct_regular : ∃ (est : ℕ → Ω → ℝ) (inf : (n : ℕ) → Ω → Fin n → ℝ), Regular P X est inf (octATT P X sg post w y u) (oGood sg post w level X) (crossTriple P X sg post w y) ∧
    ∀ (hess : ∀ (n : ℕ) (sg : Fin n → ℕ) (c : ℕ), (Sub sg c → ℝ) → Unit → Unit → ℝ) (m : Est) (hi : ℝ), 0 < hi → hi < 1 → ∀ n, ∀ ω ∈ oGood sg post w level X n,
      plainReportRC hess m hi level sg post y w X n ω = some (est n ω, inf n ω) := by
  have h1 := Regular.fixed hX (fun k : Fin 4 × Bool => mean_regular hX (oct_sq hX hC (octNo k) k.2).1 (oct_sq hX hC (octNo k) k.2).2 (hC.cells _ (octNo_mem k) k.2).ne') octSign
  rw [← oct_att hX hC] at h1
  have h2 : (fun z => ∑ k, octSign k * (w z * inOct sg post (octNo k) k.2 z * (y z - pop P X (fun z => w z * inOct sg post (octNo k) k.2 z * y z) /
      pop P X fun z => w z * inOct sg post (octNo k) k.2 z) / pop P X fun z => w z * inOct sg post (octNo k) k.2 z)) = crossTriple P X sg post w y := by
    funext z
    rw [oct_sum fun c b => w z * inOct sg post c b z * (y z - pop P X (fun z => w z * inOct sg post c b z * y z) /
      pop P X fun z => w z * inOct sg post c b z) / pop P X fun z => w z * inOct sg post c b z]
    rfl
  rw [h2] at h1
  obtain ⟨est, hest⟩ : ∃ est : ℕ → Ω → ℝ, est = fun n ω => ∑ k, octSign k *
    (avg X (fun z => w z * inOct sg post (octNo k) k.2 z * y z) n ω / avg X (fun z => w z * inOct sg post (octNo k) k.2 z) n ω) := ⟨_, rfl⟩
  obtain ⟨inf, hinf⟩ : ∃ inf : (n : ℕ) → Ω → Fin n → ℝ, inf = fun n ω (i : Fin n) => ∑ k, octSign k * (w (X i ω) * inOct sg post (octNo k) k.2 (X i ω) *
    (y (X i ω) - avg X (fun z => w z * inOct sg post (octNo k) k.2 z * y z) n ω / avg X (fun z => w z * inOct sg post (octNo k) k.2 z) n ω) /
      avg X (fun z => w z * inOct sg post (octNo k) k.2 z) n ω) := ⟨_, rfl⟩
  rw [← hest, ← hinf] at h1
  obtain ⟨⟨mm, l, u', a, a', f, c, c', hp, hψ⟩, h0⟩ := h1
  have hsub : ∀ n, oGood sg post w level X n ⊆ ⋂ k : Fin 4 × Bool, {ω | avg X (fun z => w z * inOct sg post (octNo k) k.2 z) n ω ≠ 0} := fun n ω hω =>
    Set.mem_iInter.2 fun k => (Set.mem_iInter.1 hω.1 k : 0 < avg X (fun z => w z * inOct sg post (octNo k) k.2 z) n ω).ne'
  have hg := oGood_ok hX hC
  refine ⟨est, inf, ⟨⟨mm, l, u', a, a', f, c, c', { hp with
      Gm := hg.1
      Gev := hg.2
      est_eq := fun n ω hω => hp.est_eq n ω (hsub n hω)
      inf_eq := fun n ω hω => hp.inf_eq n ω (hsub n hω) }, hψ⟩, fun n ω hω => h0 n ω (hsub n hω)⟩, fun hess m hi hi0 hi1 n ω hω => ?_⟩
  rw [octReport_eq hi0 hi1 hC.subgroup hC.nonneg hω, hest, hinf]

/-- **C280 (consistency).**  Whatever the method, with probability one `ddd_rc` without covariates reports, from some sample size on, an estimate that tends to the mean effect
on the treated cell, and `√n` times the standard error tends to the standard deviation of the influence on the eight means. -/
theorem C280_limit (hess : ∀ (n : ℕ) (sg : Fin n → ℕ) (c : ℕ), (Sub sg c → ℝ) → Unit → Unit → ℝ) (m : Est) (hi : ℝ) (hi0 : 0 < hi) (hi1 : hi < 1) :
    ∀ᵐ ω ∂P, ∃ att se : ℕ → ℝ, (∀ᶠ n in atTop, ∃ psi, plainReportRC hess m hi level sg post y w X n ω = some (att n, psi) ∧ dddSe psi = se n) ∧
    Tendsto att atTop (𝓝 (octATT P X sg post w y u)) ∧
    Tendsto (fun n : ℕ => Real.sqrt n * se n) atTop (𝓝 (Real.sqrt (pop P X fun z => crossTriple P X sg post w y z ^ 2))) := by
  obtain ⟨est, inf, ⟨⟨m', l, u', a, a', f, c, c', hp, hψ⟩, -⟩, hr⟩ := oct_regular hX hC
  filter_upwards [hp.consistent hX, hp.moments hX, hp.Gev] with ω h1 h2 h3
  simp only [hψ] at h2
  refine ⟨_, fun n => dddSe (inf n ω), ?_, h1, ?_⟩
  · filter_upwards [h3] with n hn
    exact ⟨_, hr hess m hi hi0 hi1 n ω hn, rfl⟩
  · have := (h2.mul (ratio_one hX)).sqrt
    rw [mul_one] at this
    refine this.congr' ?_
    filter_upwards [eventually_ge_atTop 2] with n hn
    have : Real.sqrt n ≠ 0 := (Real.sqrt_pos.2 (by exact_mod_cast (by omega : 0 < n))).ne'
    rw [dddSe_eq hn, mul_div_cancel₀ _ this]

/-- **C280 (coverage).**  The probability that the reported interval contains the effect tends to `1 - alpha`. -/
theorem C280_coverage (hess : ∀ (n : ℕ) (sg : Fin n → ℕ) (c : ℕ), (Sub sg c → ℝ) → Unit → Unit → ℝ) (m : Est) (hi alpha : ℝ) (hi0 : 0 < hi) (hi1 : hi < 1)
    (ha0 : 0 < alpha) (ha1 : alpha < 1) (hv : 0 < pop P X fun z => crossTriple P X sg post w y z ^ 2) :
    Tendsto (fun n => P.real {ω | ∃ att psi, plainReportRC hess m hi level sg post y w X n ω = some (att, psi) ∧
      (Report.dddInterval alpha att (dddSe psi)).1 ≤ octATT P X sg post w y u ∧ octATT P X sg post w y u ≤ (Report.dddInterval alpha att (dddSe psi)).2}) atTop
      (𝓝 (1 - alpha)) := by
  obtain ⟨est, inf, ⟨⟨m', l, u', a, a', f, c, c', hp, hψ⟩, -⟩, hr⟩ := oct_regular hX hC
  have hz : Phi (Report.zcrit alpha) = 1 - alpha / 2 := phi_ppf _ (by linarith) (by linarith)
  have e : 1 - alpha = Phi (Report.zcrit alpha) - Phi (-Report.zcrit alpha) := by rw [phi_neg, hz]; ring
  rw [e]
  have hp2 : Plugin P X est inf (octATT P X sg post w y u) (fun n => oGood sg post w level X n ∩ {_ω | 2 ≤ n}) u' a a' f c c' := { hp with
      Gm := fun n => (hp.Gm n).inter (by
        by_cases h2 : 2 ≤ n <;> simp [h2])
      Gev := by
        filter_upwards [hp.Gev] with ω h3
        filter_upwards [h3, eventually_ge_atTop 2] with n h4 h5
        exact ⟨h4, h5⟩
      est_eq := fun n ω hω => hp.est_eq n ω hω.1
      inf_eq := fun n ω hω => hp.inf_eq n ω hω.1 }
  refine hp2.coverage hX _ (ppf_half alpha ha0 ha1).le (by simpa only [hψ] using hv) _ (ratio_one hX) _ fun n ω hω => ?_
  rw [Set.mem_ofPred_eq, hr hess m hi hi0 hi1 n ω hω.1, ← dddSe_eq hω.2]
  simp only [Option.some.injEq, Prod.mk.injEq]
  constructor
  · rintro ⟨_, _, ⟨rfl, rfl⟩, h⟩
    exact h
  · intro h
    exact ⟨_, _, ⟨rfl, rfl⟩, h⟩

end

/-! ## Non-vacuity: four subgroups in two periods, each with its own trend, and a noise on which weights and effects depend -/

def ocP (z : Quads) : Bool := z.2.1
def ocW (z : Quads) : ℝ := 1 + num z.2.2
def ocU (z : Quads) : ℝ := 5 * qdNo z.1 + qdNo z.1 * num z.2.1 + (2 * num z.2.2 - 1)
def ocY (z : Quads) : ℝ := ocU z + qdOn z.1 * num z.2.1 * (3 + 3 * num z.2.2)

theorem oc_ok : CrossTriple (draws Quads) draw qdSg ocP ocW ocY ocU (995 / 1000) := by
  refine ⟨fun z => ?_, fun z => ?_, measurable_of_finite _, measurable_of_finite _, draws_sq _, draws_sq _, draws_int fun z => ocW z * inOct qdSg ocP 4 true z * ocU z,
    fun c hc b => ?_, fun z hz => ?_, ?_, fun c hc => ?_⟩
  · obtain ⟨k, p, q⟩ := z
    fin_cases k <;> simp [qdSg]
  · unfold ocW num
    split_ifs <;> norm_num
  · simp only [List.mem_cons, List.not_mem_nil, or_false] at hc
    rw [qd_pop]
    rcases hc with rfl | rfl | rfl | rfl <;> cases b <;> norm_num [ocW, ocP, inOct, qdSg, num]
  · obtain ⟨k, p, q⟩ := z
    fin_cases k <;> cases p <;> simp_all [ocY, qdOn, num, qdSg, ocP]
  · unfold octTrend octMean
    simp only [qd_pop]
    norm_num [ocW, ocP, ocU, inOct, qdSg, num, qd_no0, qd_no1, qd_no2, qd_no3]
  · simp only [List.mem_cons, List.not_mem_nil, or_false] at hc
    simp only [qd_pop]
    rcases hc with rfl | rfl | rfl <;> norm_num [ocW, inSg, qdSg, num]

theorem oc_att : octATT (draws Quads) draw qdSg ocP ocW ocY ocU = 5 := by
  unfold octATT octMean
  simp only [qd_pop]
  norm_num [ocW, ocP, ocY, inOct, qdSg, num, qd_on3]

theorem oc_inf : crossTriple (draws Quads) draw qdSg ocP ocW ocY (0, false, false) = 64 / 9 := by
  unfold crossTriple octInfluence octMean
  simp only [qd_pop]
  norm_num [ocW, ocP, ocY, ocU, inOct, qdSg, num, qd_no0, qd_no1, qd_no2, qd_no3, qd_on0, qd_on1, qd_on2, qd_on3]

theorem oc_var : 0 < pop (draws Quads) draw fun z => crossTriple (draws Quads) draw qdSg ocP ocW ocY z ^ 2 := by
  rw [qd_pop, oc_inf]
  positivity

/-- `ddd_rc` with its default method, cap and trimming level. -/
example (hess : ∀ (n : ℕ) (sg : Fin n → ℕ) (c : ℕ), (Sub sg c → ℝ) → Unit → Unit → ℝ) :
    (∀ᵐ ω ∂draws Quads, ∃ att se : ℕ → ℝ, (∀ᶠ n in atTop, ∃ psi, plainReportRC hess .dr (1 - 1 / 10 ^ 6) (995 / 1000) qdSg ocP ocY ocW draw n ω = some (att n, psi) ∧
      dddSe psi = se n) ∧ Tendsto att atTop (𝓝 5)) ∧
    Tendsto (fun n => (draws Quads).real {ω | ∃ att psi, plainReportRC hess .dr (1 - 1 / 10 ^ 6) (995 / 1000) qdSg ocP ocY ocW draw n ω = some (att, psi) ∧
      (Report.dddInterval 0.05 att (dddSe psi)).1 ≤ 5 ∧ 5 ≤ (Report.dddInterval 0.05 att (dddSe psi)).2}) atTop (𝓝 (1 - 0.05)) := by
  constructor
  · have h := C280_limit draws_sampling oc_ok hess .dr (1 - 1 / 10 ^ 6) (by norm_num) (by norm_num)
    rw [oc_att] at h
    filter_upwards [h] with ω ⟨att, se, h1, h2, _⟩
    exact ⟨att, se, h1, h2⟩
  · have h := C280_coverage draws_sampling oc_ok hess .dr (1 - 1 / 10 ^ 6) 0.05 (by norm_num) (by norm_num) (by norm_num) (by norm_num) oc_var
    rw [oc_att] at h
    exact h

end Verif.Asym
