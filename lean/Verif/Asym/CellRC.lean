import Verif.Asym.AggGen
import Verif.Asym.CrossSection

set_option linter.unusedSectionVars false
set_option linter.unusedSimpArgs false

/-!
# C281, C282: `att_gt(panel=False)` without covariates, cells and aggregates, in large samples
-/

namespace Verif.Asym

open MeasureTheory ProbabilityTheory Filter Topology Verif.Honest Verif.DR Verif.Prep

variable {Ω 𝓧 : Type*} [MeasurableSpace Ω] [MeasurableSpace 𝓧]

/-! ## Specification

An observation belongs to a cohort `G` and is observed once, in period `T`, with outcome `y` and weight `w`. -/

/-- 1 for observations of cohort `g` in period `s`. -/
def gAt (G : 𝓧 → WithTop ℤ) (T : 𝓧 → ℤ) (g s : ℤ) (z : 𝓧) : ℝ := if G z = (g : WithTop ℤ) ∧ T z = s then 1 else 0

/-- 1 for observations in period `s` of the comparison cohorts of the cell of cohort `g` and the periods `t`, `b`: never treated, or not yet treated in either period (with
anticipation `a`) and another cohort. -/
def cAt (G : 𝓧 → WithTop ℤ) (T : 𝓧 → ℤ) (cg : ControlGroup) (a g t b s : ℤ) (z : 𝓧) : ℝ :=
  if (G z ≠ (g : WithTop ℤ) ∧ IsComparison cg (max t b + a) (G z)) ∧ T z = s then 1 else 0

/-- Mean of `y` with weights `e`. -/
noncomputable def wMean (P : Measure Ω) (X : ℕ → Ω → 𝓧) (e y : 𝓧 → ℝ) : ℝ := (pop P X fun z => e z * y z) / pop P X e

/-- The mean effect of treatment on the observations of cohort `g` in period `t`: outcomes `y` less those without treatment, `u`. -/
noncomputable def waveATT (P : Measure Ω) (X : ℕ → Ω → 𝓧) (G : 𝓧 → WithTop ℤ) (T : 𝓧 → ℤ) (y u w : 𝓧 → ℝ) (g t : ℤ) : ℝ :=
  wMean P X (fun z => w z * gAt G T g t z) fun z => y z - u z

/-- Every arm of the cell has weight in both periods, and the share of the cohort is below the trimming level. -/
structure WaveDesign (P : Measure Ω) (X : ℕ → Ω → 𝓧) (G : 𝓧 → WithTop ℤ) (T : 𝓧 → ℤ) (y w : 𝓧 → ℝ) (level : ℝ) (cg : ControlGroup) (a g t b : ℤ) : Prop where
  nonneg : ∀ z, 0 ≤ w z
  measG : ∀ A : Set (WithTop ℤ), MeasurableSet (G ⁻¹' A)
  measT : Measurable T
  sqW : SqInt P X w
  sqY : SqInt P X fun z => w z * y z
  periods : b ≠ t
  cohort : ∀ s ∈ [t, b], 0 < pop P X fun z => w z * gAt G T g s z
  others : ∀ s ∈ [t, b], 0 < pop P X fun z => w z * cAt G T cg a g t b s z
  share : ((pop P X fun z => w z * gAt G T g t z) + pop P X fun z => w z * gAt G T g b z) <
    level * (((pop P X fun z => w z * gAt G T g t z) + pop P X fun z => w z * gAt G T g b z) +
      ((pop P X fun z => w z * cAt G T cg a g t b t z) + pop P X fun z => w z * cAt G T cg a g t b b z))

/-- No anticipation, a base period before the anticipation window, and parallel trends of the means of the untreated outcome. -/
structure WaveTrends (P : Measure Ω) (X : ℕ → Ω → 𝓧) (G : 𝓧 → WithTop ℤ) (T : 𝓧 → ℤ) (y u w : 𝓧 → ℝ) (cg : ControlGroup) (a g t b : ℤ) : Prop where
  noAnticipation : ∀ z, ((T z + a : ℤ) : WithTop ℤ) < G z → y z = u z
  base : b + a < g
  intU : Integrable (fun ω => w (X 0 ω) * gAt G T g t (X 0 ω) * u (X 0 ω)) P
  parallel : wMean P X (fun z => w z * gAt G T g t z) u - wMean P X (fun z => w z * gAt G T g b z) u =
    wMean P X (fun z => w z * cAt G T cg a g t b t z) u - wMean P X (fun z => w z * cAt G T cg a g t b b z) u

/-- Influence of an observation on the difference in differences of the four means. -/
noncomputable def waveInfluence (P : Measure Ω) (X : ℕ → Ω → 𝓧) (G : 𝓧 → WithTop ℤ) (T : 𝓧 → ℤ) (y w : 𝓧 → ℝ) (cg : ControlGroup) (a g t b : ℤ) (z : 𝓧) : ℝ :=
  let dev := fun e : 𝓧 → ℝ => w z * e z * (y z - wMean P X (fun z => w z * e z) y) / pop P X fun z => w z * e z
  (dev (gAt G T g t) - dev (gAt G T g b)) - (dev (cAt G T cg a g t b t) - dev (cAt G T cg a g t b b))

/-! ## Model -/

section
variable {ι : Type*} [Fintype ι] (B : Bounds) (m : CrossMeth) (s : ι → Option Bool) (y : ι → ℝ) (post : ι → Bool) (w : ι → ℝ)

/-- Estimate of a cell of repeated cross-sections, `compute_att_gt.py:168-204, 329-387`: both arms must be present, the estimator sees the rows of the cell only.
`est_method` is `"reg"`, `"ipw"` or `"dr"` (`drdid_rc`); the other estimators can be passed as functions. -/
noncomputable def cellEstW : Option ℝ :=
  if (∃ i, s i = some true) ∧ ∃ i, s i = some false then
    crossEst B (fun i : Valid s => y i) (fun i => post i) (fun i => decide (s i = some true)) (fun i => w i) m
  else none

/-- Influence function of the cell, `compute_att_gt.py:399-401`. -/
noncomputable def cellInfW (i : ι) : ℝ :=
  if h : (s i).isSome = true then
    (Fintype.card ι : ℝ) / (Fintype.card (Valid s) : ℝ) *
      crossInf B (fun i : Valid s => y i) (fun i => post i) (fun i => decide (s i = some true)) (fun i => w i) m ⟨i, h⟩
  else 0

end

/-- Role of an observation in the cell: its row must be of one of the two periods, `compute_att_gt.py:273-301`. -/
def waveRole (G : 𝓧 → WithTop ℤ) (T : 𝓧 → ℤ) (cg : ControlGroup) (a g t b : ℤ) (z : 𝓧) : Option Bool :=
  if T z = t ∨ T z = b then role cg (max t b + a) g (G z) else none

section
variable (B : Bounds) (m : CrossMeth) (G : 𝓧 → WithTop ℤ) (T : 𝓧 → ℤ) (y w : 𝓧 → ℝ) (cg : ControlGroup) (a : ℤ) (bs : ℤ × ℤ → ℤ) (X : ℕ → Ω → 𝓧)

/-- Estimate of a cell (cohort, period) from the first `n` rows, `compute_att_gt.py:178-204`. -/
noncomputable def waveEst (c : ℤ × ℤ) (n : ℕ) (ω : Ω) : Option ℝ :=
  cellEstW B m (fun i : Fin n => waveRole G T cg a c.1 c.2 (bs c) (X i ω)) (fun i => y (X i ω)) (fun i => decide (T (X i ω) = c.2)) fun i => w (X i ω)

/-- Its influence function. -/
noncomputable def waveInf (c : ℤ × ℤ) (n : ℕ) (ω : Ω) : Fin n → ℝ :=
  cellInfW B m (fun i : Fin n => waveRole G T cg a c.1 c.2 (bs c) (X i ω)) (fun i => y (X i ω)) (fun i => decide (T (X i ω) = c.2)) fun i => w (X i ω)

end

/-! ## Samples -/

section
variable {ι : Type*} [Fintype ι] {B : Bounds} {m : CrossMeth} {s : ι → Option Bool} {y : ι → ℝ} {post : ι → Bool} {w : ι → ℝ}

theorem valid_sel (f : ι → ℝ) (a b : Bool) : ∑ i : Valid s with decide (s i.1 = some true) = a ∧ post i.1 = b, f i.1 = ∑ i with s i = some a ∧ post i = b, f i := by
  rw [Finset.sum_filter, valid_sum s fun i => if decide (s i = some true) = a ∧ post i = b then f i else 0, Finset.sum_filter]
  refine Finset.sum_congr rfl fun i _ => ?_
  unfold inCell
  cases h : s i with
  | none => simp
  | some q => cases q <;> cases a <;> simp

theorem valid_arm (f : ι → ℝ) (a : Bool) : ∑ i : Valid s with decide (s i.1 = some true) = a, f i.1 = ∑ i with s i = some a, f i := by
  have h := valid_sel (s := s) (post := fun _ => true) f a true
  simpa using h

theorem valid_wavg (a b : Bool) : wavg (fun i : Valid s => w i) (fun i => decide (s i.1 = some true) = a ∧ post i.1 = b) (fun i => y i) =
    wavg w (fun i => s i = some a ∧ post i = b) y := by
  have h1 := valid_sel (s := s) (post := post) w a b
  have h2 := valid_sel (s := s) (post := post) (fun i => w i * y i) a b
  unfold wavg
  rw [← h1, ← h2]

theorem valid_avgIF (a b : Bool) (i : ι) (h : (s i).isSome = true) : (Fintype.card ι : ℝ) / (Fintype.card (Valid s) : ℝ) *
      DR.NoCov.avgIF (fun i : Valid s => w i) (fun i => decide (s i.1 = some true) = a ∧ post i.1 = b) (fun i => y i) ⟨i, h⟩ =
    DR.NoCov.avgIF w (fun i => s i = some a ∧ post i = b) y i := by
  have hpos : 0 < Fintype.card (Valid s) := Fintype.card_pos_iff.2 ⟨⟨i, h⟩⟩
  have hne : (Fintype.card (Valid s) : ℝ) ≠ 0 := by exact_mod_cast hpos.ne'
  have hcond : (decide (s i = some true) = a ∧ post i = b) ↔ (s i = some a ∧ post i = b) := by
    cases hs : s i with
    | none => simp [hs] at h
    | some q => cases q <;> cases a <;> simp
  unfold DR.NoCov.avgIF
  by_cases h2 : decide (s i = some true) = a ∧ post i = b
  · rw [if_pos h2, if_pos (hcond.1 h2), valid_wavg, valid_sel w a b]
    field_simp
  · rw [if_neg h2, if_neg fun h3 => h2 (hcond.2 h3), mul_zero]

/-- **C281 (sample).**  When both arms of the cell have weight in both periods and the treated share is below the trimming level, every method gives the difference in
differences of the four weighted means, and its influence function over all rows. -/
theorem C281_sample (hw : ∀ i, 0 ≤ w i) (h4 : ∀ a b : Bool, 0 < ∑ i with s i = some a ∧ post i = b, w i)
    (hs : ∑ i with s i = some true, w i < B.level * (∑ i with s i = some true, w i + ∑ i with s i = some false, w i)) :
    cellEstW B m s y post w = some ((wavg w (fun i => s i = some true ∧ post i = true) y - wavg w (fun i => s i = some true ∧ post i = false) y) -
      (wavg w (fun i => s i = some false ∧ post i = true) y - wavg w (fun i => s i = some false ∧ post i = false) y)) ∧
    ∀ i, cellInfW B m s y post w i =
      (DR.NoCov.avgIF w (fun i => s i = some true ∧ post i = true) y i - DR.NoCov.avgIF w (fun i => s i = some true ∧ post i = false) y i) -
      (DR.NoCov.avgIF w (fun i => s i = some false ∧ post i = true) y i - DR.NoCov.avgIF w (fun i => s i = some false ∧ post i = false) y i) := by
  have hF : FourCells (fun i : Valid s => w i) (fun i => decide (s i.1 = some true)) (fun i => post i) :=
    ⟨fun i => hw _, fun a b => by rw [valid_sel w a b]; exact h4 a b⟩
  have hsh : treatedShare (fun i : Valid s => w i) (fun i => decide (s i.1 = some true)) < B.level := by
    have hT := hF.arms.total
    unfold treatedShare
    rw [div_lt_iff₀ hT]
    rw [sum_split (fun i : Valid s => decide (s i.1 = some true)), valid_arm w true, valid_arm w false]
    exact hs
  have hex : ∀ a : Bool, ∃ i, s i = some a := fun a => by
    by_contra hcon
    push Not at hcon
    have := h4 a true
    rw [Finset.filter_false_of_mem fun i _ h => hcon i h.1] at this
    simp at this
  obtain ⟨h1, h2⟩ := cross_eq (B := B) (y := fun i : Valid s => y i) hF hsh m
  constructor
  · unfold cellEstW
    rw [if_pos ⟨hex true, hex false⟩, h1]
    unfold did4
    simp only [valid_wavg]
  · intro i
    unfold cellInfW
    split_ifs with h
    · rw [h2]
      unfold DR.NoCov.did4IF
      rw [mul_sub, mul_sub, mul_sub, valid_avgIF, valid_avgIF, valid_avgIF, valid_avgIF]
    · unfold DR.NoCov.avgIF
      have h0 : ∀ a : Bool, s i ≠ some a := fun a ha => h (by rw [ha]; rfl)
      simp [h0]

end

/-! ## The population -/

section
variable {G : 𝓧 → WithTop ℤ} {T : 𝓧 → ℤ} {cg : ControlGroup} {a g t b : ℤ}

/-- Indicator of an arm and a period of the cell. -/
def wArm (G : 𝓧 → WithTop ℤ) (T : 𝓧 → ℤ) (cg : ControlGroup) (a g t b : ℤ) (c : Bool × Bool) (z : 𝓧) : ℝ :=
  if c.1 then gAt G T g (if c.2 then t else b) z else cAt G T cg a g t b (if c.2 then t else b) z

theorem wArm_eq (hb : b ≠ t) (c : Bool × Bool) (z : 𝓧) :
    wArm G T cg a g t b c z = if waveRole G T cg a g t b z = some c.1 ∧ decide (T z = t) = c.2 then 1 else 0 := by
  obtain ⟨p, q⟩ := c
  unfold wArm gAt cAt waveRole role
  by_cases h1 : T z = t
  · have h1' : t ≠ b := hb.symm
    cases p <;> cases q <;> by_cases h2 : G z = (g : WithTop ℤ) <;> by_cases h3 : IsComparison cg (max t b + a) (G z) <;> simp [h1, h1', h2, h3]
  · by_cases h4 : T z = b
    · cases p <;> cases q <;> by_cases h2 : G z = (g : WithTop ℤ) <;> by_cases h3 : IsComparison cg (max t b + a) (G z) <;> simp [h1, h4, h2, h3, hb]
    · cases p <;> cases q <;> simp [h1, h4]

/-- Samples with weight in the four cells and the treated share below the trimming level. -/
def vGood (G : 𝓧 → WithTop ℤ) (T : 𝓧 → ℤ) (w : 𝓧 → ℝ) (level : ℝ) (cg : ControlGroup) (a g t b : ℤ) (X : ℕ → Ω → 𝓧) (n : ℕ) : Set Ω :=
  (⋂ c, {ω | 0 < avg X (fun z => w z * wArm G T cg a g t b c z) n ω}) ∩
    {ω | avg X (fun z => w z * wArm G T cg a g t b (true, true) z) n ω + avg X (fun z => w z * wArm G T cg a g t b (true, false) z) n ω <
      level * (avg X (fun z => w z * wArm G T cg a g t b (true, true) z) n ω + avg X (fun z => w z * wArm G T cg a g t b (true, false) z) n ω +
        (avg X (fun z => w z * wArm G T cg a g t b (false, true) z) n ω + avg X (fun z => w z * wArm G T cg a g t b (false, false) z) n ω))}

theorem ind_avg (X : ℕ → Ω → 𝓧) (w y e : 𝓧 → ℝ) {n : ℕ} {ω : Ω} (h : 0 < n) (S : Fin n → Prop) [DecidablePred S] (he : ∀ i : Fin n, e (X i ω) = if S i then 1 else 0) :
    wavg (fun i : Fin n => w (X i ω)) S (fun i => y (X i ω)) = avg X (fun z => w z * e z * y z) n ω / avg X (fun z => w z * e z) n ω ∧
    ∀ i : Fin n, DR.NoCov.avgIF (fun i : Fin n => w (X i ω)) S (fun i => y (X i ω)) i =
      w (X i ω) * e (X i ω) * (y (X i ω) - avg X (fun z => w z * e z * y z) n ω / avg X (fun z => w z * e z) n ω) / avg X (fun z => w z * e z) n ω := by
  have hn : (n : ℝ) ≠ 0 := by exact_mod_cast h.ne'
  have e1 : ∀ f : 𝓧 → ℝ, avg X f n ω = (∑ i : Fin n, f (X i ω)) / n := fun f => by
    unfold avg
    rw [Finset.sum_range]
  have e2 : ∑ i : Fin n with S i, w (X i ω) = ∑ i : Fin n, w (X i ω) * e (X i ω) := by
    rw [Finset.sum_filter]
    refine Finset.sum_congr rfl fun i _ => ?_
    rw [he]
    split_ifs <;> simp
  have e3 : ∑ i : Fin n with S i, w (X i ω) * y (X i ω) = ∑ i : Fin n, w (X i ω) * e (X i ω) * y (X i ω) := by
    rw [Finset.sum_filter]
    refine Finset.sum_congr rfl fun i _ => ?_
    rw [he]
    split_ifs <;> simp
  have e4 : wavg (fun i : Fin n => w (X i ω)) S (fun i => y (X i ω)) = avg X (fun z => w z * e z * y z) n ω / avg X (fun z => w z * e z) n ω := by
    unfold wavg
    rw [e2, e3, e1, e1, div_div_div_cancel_right₀ hn]
  refine ⟨e4, fun i => ?_⟩
  unfold DR.NoCov.avgIF
  rw [e4, e2, e1 fun z => w z * e z, Fintype.card_fin]
  generalize (avg X (fun z => w z * e z * y z) n ω / ((∑ i : Fin n, w (X i ω) * e (X i ω)) / n)) = q
  generalize (∑ i : Fin n, w (X i ω) * e (X i ω)) = r
  rw [he]
  split_ifs with hc
  · rw [div_div_eq_mul_div]
    ring
  · simp

variable {B : Bounds} {m : CrossMeth} {y w : 𝓧 → ℝ} {X : ℕ → Ω → 𝓧} {n : ℕ} {ω : Ω}

/-- On good samples the cell is the difference in differences of the four sample means. -/
theorem wave_eq (bs : ℤ × ℤ → ℤ) (c : ℤ × ℤ) (hb : bs c ≠ c.2) (hw : ∀ z, 0 ≤ w z) (h : ω ∈ vGood G T w B.level cg a c.1 c.2 (bs c) X n) :
    waveEst B m G T y w cg a bs X c n ω = some (∑ k, armSign k * (avg X (fun z => w z * wArm G T cg a c.1 c.2 (bs c) k z * y z) n ω /
      avg X (fun z => w z * wArm G T cg a c.1 c.2 (bs c) k z) n ω)) ∧
    waveInf B m G T y w cg a bs X c n ω = fun i : Fin n => ∑ k, armSign k * (w (X i ω) * wArm G T cg a c.1 c.2 (bs c) k (X i ω) *
      (y (X i ω) - avg X (fun z => w z * wArm G T cg a c.1 c.2 (bs c) k z * y z) n ω / avg X (fun z => w z * wArm G T cg a c.1 c.2 (bs c) k z) n ω) /
        avg X (fun z => w z * wArm G T cg a c.1 c.2 (bs c) k z) n ω) := by
  obtain ⟨h1, h3⟩ := h
  rw [Set.mem_iInter] at h1
  have hn : 0 < n := by
    rcases Nat.eq_zero_or_pos n with rfl | h
    · have := h1 (true, true)
      simp [avg] at this
    · exact h
  have hn' : (0 : ℝ) < n := by exact_mod_cast hn
  have hA : ∀ f : 𝓧 → ℝ, avg X f n ω = (∑ i : Fin n, f (X i ω)) / n := fun f => by
    unfold avg
    rw [Finset.sum_range]
  have hk : ∀ (p q : Bool) (i : Fin n), wArm G T cg a c.1 c.2 (bs c) (p, q) (X i ω) =
      if waveRole G T cg a c.1 c.2 (bs c) (X i ω) = some p ∧ decide (T (X i ω) = c.2) = q then 1 else 0 := fun p q i => wArm_eq hb (p, q) (X i ω)
  have e1 : ∀ p q, ∑ i : Fin n with waveRole G T cg a c.1 c.2 (bs c) (X i.1 ω) = some p ∧ decide (T (X i.1 ω) = c.2) = q, w (X i ω) =
      ∑ i : Fin n, w (X i ω) * wArm G T cg a c.1 c.2 (bs c) (p, q) (X i ω) := fun p q => by
    rw [Finset.sum_filter]
    refine Finset.sum_congr rfl fun i _ => ?_
    rw [hk]
    split_ifs <;> simp
  have e2 : ∀ p, ∑ i : Fin n with waveRole G T cg a c.1 c.2 (bs c) (X i.1 ω) = some p, w (X i ω) =
      ∑ i : Fin n, w (X i ω) * wArm G T cg a c.1 c.2 (bs c) (p, true) (X i ω) + ∑ i : Fin n, w (X i ω) * wArm G T cg a c.1 c.2 (bs c) (p, false) (X i ω) := fun p => by
    rw [Finset.sum_filter, ← Finset.sum_add_distrib]
    refine Finset.sum_congr rfl fun i _ => ?_
    rw [hk, hk]
    by_cases h5 : waveRole G T cg a c.1 c.2 (bs c) (X i ω) = some p <;> by_cases h6 : T (X i ω) = c.2 <;> simp [h5, h6]
  rw [Set.mem_ofPred_eq] at h3
  simp only [hA] at h3
  simp only [← add_div] at h3
  rw [← mul_div_assoc, div_lt_div_iff_of_pos_right hn'] at h3
  have h5 := C281_sample (B := B) (m := m) (s := fun i : Fin n => waveRole G T cg a c.1 c.2 (bs c) (X i ω)) (y := fun i => y (X i ω))
    (post := fun i => decide (T (X i ω) = c.2)) (w := fun i => w (X i ω)) (fun i => hw _) (fun p q => by
      rw [e1]
      have := h1 (p, q)
      rw [Set.mem_ofPred_eq, hA] at this
      exact (div_pos_iff_of_pos_right hn').1 this) (by
      rw [e2, e2]
      exact h3)
  have hav := fun p q => ind_avg X w y (wArm G T cg a c.1 c.2 (bs c) (p, q)) hn _ (hk p q)
  constructor
  · unfold waveEst
    rw [h5.1]
    simp only [(hav _ _).1]
    simp only [Fintype.sum_prod_type, Fintype.sum_bool, armSign, if_true, Bool.false_eq_true, if_false]
    congr 1
    simp
    ring
  · funext i
    unfold waveInf
    rw [h5.2]
    simp only [(hav _ _).2]
    simp only [Fintype.sum_prod_type, Fintype.sum_bool, armSign, if_true, Bool.false_eq_true, if_false]
    simp
    ring

end

section
variable {P : Measure Ω} [IsProbabilityMeasure P] {X : ℕ → Ω → 𝓧} (hX : Sampling P X) {B : Bounds} {m : CrossMeth} {G : 𝓧 → WithTop ℤ} {T : 𝓧 → ℤ} {y u w : 𝓧 → ℝ}
  {cg : ControlGroup} {a g t b : ℤ} (hC : WaveDesign P X G T y w B.level cg a g t b)
include hC

theorem wArm_meas (c : Bool × Bool) : Measurable (wArm G T cg a g t b c) := by
  have hp : ∀ s : ℤ, MeasurableSet {z | T z = s} := fun s => hC.measT (MeasurableSet.of_discrete (s := {k : ℤ | k = s}))
  obtain ⟨p, q⟩ := c
  unfold wArm
  cases p
  · simp only [Bool.false_eq_true, if_false]
    unfold cAt
    exact Measurable.ite ((hC.measG {c | c ≠ (g : WithTop ℤ) ∧ IsComparison cg (max t b + a) c}).inter (hp _)) measurable_const measurable_const
  · simp only [if_true]
    unfold gAt
    exact Measurable.ite ((hC.measG {c | c = (g : WithTop ℤ)}).inter (hp _)) measurable_const measurable_const

theorem wArm_pos (c : Bool × Bool) : 0 < pop P X fun z => w z * wArm G T cg a g t b c z := by
  obtain ⟨p, q⟩ := c
  unfold wArm
  cases p <;> cases q
  · exact hC.others b (by simp)
  · exact hC.others t (by simp)
  · exact hC.cohort b (by simp)
  · exact hC.cohort t (by simp)

include hX

theorem wArm_sq (c : Bool × Bool) : SqInt P X (fun z => w z * wArm G T cg a g t b c z) ∧ SqInt P X fun z => w z * wArm G T cg a g t b c z * y z := by
  have hb : ∀ z, |wArm G T cg a g t b c z| ≤ 1 := fun z => by
    rw [wArm_eq hC.periods]
    split_ifs <;> norm_num
  refine ⟨hC.sqW.mul_le (hX.aemeas 0) (wArm_meas hC c) hb, ?_⟩
  have := hC.sqY.mul_le (hX.aemeas 0) (wArm_meas hC c) hb
  exact (funext fun z => by ring : (fun z => w z * y z * wArm G T cg a g t b c z) = fun z => w z * wArm G T cg a g t b c z * y z) ▸ this

theorem vGood_ok : (∀ n, NullMeasurableSet (vGood G T w B.level cg a g t b X n) P) ∧ ∀ᵐ ω ∂P, ∀ᶠ n in atTop, ω ∈ vGood G T w B.level cg a g t b X n := by
  have hm := fun c n => avg_aemeas hX (wArm_sq hX hC c).1.1 n
  constructor
  · intro n
    exact (NullMeasurableSet.iInter fun c => nullMeasurableSet_lt aemeasurable_const (hm c n)).inter
      (nullMeasurableSet_lt ((hm _ n).add (hm _ n)) ((((hm _ n).add (hm _ n)).add ((hm _ n).add (hm _ n))).const_mul B.level))
  · have h0 : ∀ᵐ ω ∂P, ∀ c : Bool × Bool, Tendsto (fun n => avg X (fun z => w z * wArm G T cg a g t b c z) n ω) atTop (𝓝 (pop P X fun z => w z * wArm G T cg a g t b c z)) :=
      ae_all_iff.2 fun c => lln2 hX (wArm_sq hX hC c).1
    filter_upwards [h0] with ω h1
    filter_upwards [eventually_all.2 fun c => (h1 c).eventually_const_lt (wArm_pos hC c), ((h1 (true, true)).add (h1 (true, false))).eventually_lt
      ((((h1 (true, true)).add (h1 (true, false))).add ((h1 (false, true)).add (h1 (false, false)))).const_mul B.level) hC.share] with n a1 a2
    exact ⟨Set.mem_iInter.2 a1, a2⟩

variable (hT : WaveTrends P X G T y u w cg a g t b)
include hT

/-- Parallel trends identify the effect. -/
theorem wave_att : waveATT P X G T y u w g t = ∑ k, armSign k * (pop P X (fun z => w z * wArm G T cg a g t b k z * y z) / pop P X fun z => w z * wArm G T cg a g t b k z) := by
  have hk : ∀ (e : 𝓧 → ℝ), (∀ z, e z ≠ 0 → y z = u z) → wMean P X (fun z => w z * e z) u = wMean P X (fun z => w z * e z) y := fun e he => by
    unfold wMean
    congr 2
    funext z
    by_cases h : e z = 0
    · simp [h]
    · rw [he z h]
  have h1 := hk (gAt G T g b) fun z hz => by
    unfold gAt at hz
    split_ifs at hz with h
    · exact hT.noAnticipation z (by rw [h.1, h.2]; exact WithTop.coe_lt_coe.2 hT.base)
    · exact absurd rfl hz
  have hc : ∀ s, s ≤ max t b → wMean P X (fun z => w z * cAt G T cg a g t b s z) u = wMean P X (fun z => w z * cAt G T cg a g t b s z) y := fun s hs =>
    hk (cAt G T cg a g t b s) fun z hz => by
      unfold cAt at hz
      split_ifs at hz with h
      · refine hT.noAnticipation z (lt_of_le_of_lt (WithTop.coe_le_coe.2 (by rw [h.2]; omega : T z + a ≤ max t b + a)) ?_)
        have h2 := h.1.2
        unfold IsComparison at h2
        cases cg with
        | neverTreated => simp only at h2; rw [h2]; exact WithTop.coe_lt_top _
        | notYetTreated => exact h2
      · exact absurd rfl hz
  have h2 : waveATT P X G T y u w g t = wMean P X (fun z => w z * gAt G T g t z) y - wMean P X (fun z => w z * gAt G T g t z) u := by
    unfold waveATT wMean
    rw [← sub_div]
    congr 1
    unfold pop
    have hsq : SqInt P X fun z => w z * gAt G T g t z * y z := (wArm_sq hX hC (true, true)).2
    have j := integral_sub (hsq.2.integrable (by norm_num)) hT.intU
    refine Eq.trans ?_ j
    congr 1
    funext ω
    dsimp only
    ring
  have h3 := hT.parallel
  rw [h1, hc t (le_max_left _ _), hc b (le_max_right _ _)] at h3
  rw [h2]
  simp only [Fintype.sum_prod_type, Fintype.sum_bool, armSign, wArm]
  simp only [if_true, Bool.false_eq_true, if_false, reduceCtorEq, one_mul, neg_mul]
  change _ = wMean P X (fun z => w z * gAt G T g t z) y + -wMean P X (fun z => w z * gAt G T g b z) y +
    (-wMean P X (fun z => w z * cAt G T cg a g t b t z) y + wMean P X (fun z => w z * cAt G T cg a g t b b z) y)
  linarith

end

section
variable {P : Measure Ω} [IsProbabilityMeasure P] {X : ℕ → Ω → 𝓧} (hX : Sampling P X) {B : Bounds} {m : CrossMeth} {G : 𝓧 → WithTop ℤ} {T : 𝓧 → ℤ} {y u w : 𝓧 → ℝ}
  {cg : ControlGroup} {a : ℤ} {bs : ℤ × ℤ → ℤ} {D : List (ℤ × ℤ)}
include hX

theorem wave_regular {c : ℤ × ℤ} (hC : WaveDesign P X G T y w B.level cg a c.1 c.2 (bs c)) (hT : WaveTrends P X G T y u w cg a c.1 c.2 (bs c)) :
    Regular P X (gEst (waveEst B m G T y w cg a bs X) c) (waveInf B m G T y w cg a bs X c) (waveATT P X G T y u w c.1 c.2)
      (vGood G T w B.level cg a c.1 c.2 (bs c) X) (waveInfluence P X G T y w cg a c.1 c.2 (bs c)) := by
  have h1 := Regular.fixed hX (fun k => mean_regular hX (wArm_sq hX hC k).1 (wArm_sq hX hC k).2 (wArm_pos hC k).ne') armSign
  rw [← wave_att hX hC hT] at h1
  have h2 : (fun z => ∑ k, armSign k * (w z * wArm G T cg a c.1 c.2 (bs c) k z * (y z - pop P X (fun z => w z * wArm G T cg a c.1 c.2 (bs c) k z * y z) /
      pop P X fun z => w z * wArm G T cg a c.1 c.2 (bs c) k z) / pop P X fun z => w z * wArm G T cg a c.1 c.2 (bs c) k z)) =
      waveInfluence P X G T y w cg a c.1 c.2 (bs c) := by
    funext z
    unfold waveInfluence wMean
    simp only [Fintype.sum_prod_type, Fintype.sum_bool, armSign, wArm]
    simp
    ring
  rw [h2] at h1
  obtain ⟨⟨mm, l, v, q, q', f, e, e', hp, hψ⟩, h0⟩ := h1
  have hsub : ∀ n, vGood G T w B.level cg a c.1 c.2 (bs c) X n ⊆ ⋂ k, {ω | avg X (fun z => w z * wArm G T cg a c.1 c.2 (bs c) k z) n ω ≠ 0} := fun n ω hω =>
    Set.mem_iInter.2 fun k => (Set.mem_iInter.1 hω.1 k : 0 < avg X (fun z => w z * wArm G T cg a c.1 c.2 (bs c) k z) n ω).ne'
  have hg := vGood_ok hX hC
  have he := fun n ω (hω : ω ∈ vGood G T w B.level cg a c.1 c.2 (bs c) X n) => wave_eq (B := B) (m := m) (y := y) bs c hC.periods hC.nonneg hω
  refine ⟨⟨mm, l, v, q, q', f, e, e', { hp with
      Gm := hg.1
      Gev := hg.2
      est_eq := fun n ω hω => ?_
      inf_eq := fun n ω hω => ?_ }, hψ⟩, fun n ω hω => ?_⟩
  · unfold gEst
    rw [(he n ω hω).1]
    exact hp.est_eq n ω (hsub n hω)
  · rw [(he n ω hω).2]
    exact hp.inf_eq n ω (hsub n hω)
  · rw [(he n ω hω).2]
    exact h0 n ω (hsub n hω)

theorem wave_fit {c : ℤ × ℤ} (hC : WaveDesign P X G T y w B.level cg a c.1 c.2 (bs c)) (hT : WaveTrends P X G T y u w cg a c.1 c.2 (bs c)) :
    CellFit P X G w (waveEst B m G T y w cg a bs X) (waveInf B m G T y w cg a bs X) (fun c => waveATT P X G T y u w c.1 c.2)
      (fun c => vGood G T w B.level cg a c.1 c.2 (bs c) X) (fun c => waveInfluence P X G T y w cg a c.1 c.2 (bs c)) c := by
  have hsq : SqInt P X fun z => w z * isG G c.1 z := by
    refine hC.sqW.mul_le (hX.aemeas 0) ?_ fun z => by unfold isG; split_ifs <;> norm_num
    unfold isG
    exact Measurable.ite (hC.measG {q | q = (c.1 : WithTop ℤ)}) measurable_const measurable_const
  refine ⟨wave_regular hX hC hT, fun n ω hω => ?_, hC.nonneg, hsq, ?_⟩
  · unfold gEst
    rw [(wave_eq (B := B) (m := m) (y := y) bs c hC.periods hC.nonneg hω).1]
    rfl
  · refine (hC.cohort c.2 (by simp)).trans_le (integral_mono ((wArm_sq hX hC (true, true)).1.2.integrable (by norm_num)) (hsq.2.integrable (by norm_num)) fun ω => ?_)
    have h1 := hC.nonneg (X 0 ω)
    dsimp only
    unfold gAt isG
    by_cases h2 : G (X 0 ω) = (c.1 : WithTop ℤ) <;> by_cases h3 : T (X 0 ω) = c.2 <;> simp [h2, h3, h1]

/-- **C281 (cells).**  With probability one a cell of `att_gt(panel=False)` without covariates is estimated from some sample size on; its estimate tends to the mean effect on
the cohort's observations of the period, `√n` times its standard error to the standard deviation of the influence, and the coverage of its interval to `1 - alpha`. -/
theorem C281_cell {c : ℤ × ℤ} (hC : WaveDesign P X G T y w B.level cg a c.1 c.2 (bs c)) (hT : WaveTrends P X G T y u w cg a c.1 c.2 (bs c)) :
    Inference P X (fun n ω => repOf (waveEst B m G T y w cg a bs X c n ω) (waveInf B m G T y w cg a bs X c n ω)) (waveATT P X G T y u w c.1 c.2)
      (waveInfluence P X G T y w cg a c.1 c.2 (bs c)) := by
  have hf := wave_fit (m := m) hX hC hT
  refine hf.regular.inference hX _ fun n ω hω => ?_
  rw [hf.some n ω hω]
  rfl

/-- The cells handed to `aggte`. -/
noncomputable abbrev waveTable (B : Bounds) (m : CrossMeth) (G : 𝓧 → WithTop ℤ) (T : 𝓧 → ℤ) (y w : 𝓧 → ℝ) (cg : ControlGroup) (a : ℤ) (bs : ℤ × ℤ → ℤ) (X : ℕ → Ω → 𝓧)
    (D : List (ℤ × ℤ)) (n : ℕ) (ω : Ω) : List (Agg.Cell (Fin n) ℝ) :=
  genTable (waveEst B m G T y w cg a bs X) (waveInf B m G T y w cg a bs X) D n ω

/-- Mean of the effects of the cells of a list, weighted by the population shares of the cohorts, and the influence on it. -/
noncomputable abbrev waveAgg (P : Measure Ω) (X : ℕ → Ω → 𝓧) (G : 𝓧 → WithTop ℤ) (T : 𝓧 → ℤ) (y u w : 𝓧 → ℝ) (L : List (ℤ × ℤ)) : ℝ :=
  shareMean P X G w Prod.fst (fun c => waveATT P X G T y u w c.1 c.2) L

noncomputable abbrev waveAggInf (P : Measure Ω) (X : ℕ → Ω → 𝓧) (G : 𝓧 → WithTop ℤ) (T : 𝓧 → ℤ) (y u w : 𝓧 → ℝ) (cg : ControlGroup) (a : ℤ) (bs : ℤ × ℤ → ℤ)
    (L : List (ℤ × ℤ)) : 𝓧 → ℝ :=
  shareInfluence P X G w Prod.fst (fun c => waveATT P X G T y u w c.1 c.2) (fun c => waveInfluence P X G T y w cg a c.1 c.2 (bs c)) L

/-- Design and trends of a cell. -/
abbrev WaveOK (P : Measure Ω) (X : ℕ → Ω → 𝓧) (G : 𝓧 → WithTop ℤ) (T : 𝓧 → ℤ) (y u w : 𝓧 → ℝ) (level : ℝ) (cg : ControlGroup) (a : ℤ) (bs : ℤ × ℤ → ℤ) (c : ℤ × ℤ) : Prop :=
  WaveDesign P X G T y w level cg a c.1 c.2 (bs c) ∧ WaveTrends P X G T y u w cg a c.1 c.2 (bs c)

/-- **C282 (simple aggregation).** -/
theorem C282_simple (hC : ∀ c ∈ postCells D, WaveOK P X G T y u w B.level cg a bs c) (hne : postCells D ≠ []) :
    Inference P X (fun n ω => repOf (Agg.simpleAgg (fun i : Fin n => G (X i ω)) (fun i => w (X i ω)) none (waveTable B m G T y w cg a bs X D n ω)).1
        (Agg.simpleAgg (fun i : Fin n => G (X i ω)) (fun i => w (X i ω)) none (waveTable B m G T y w cg a bs X D n ω)).2)
      (waveAgg P X G T y u w (postCells D)) (waveAggInf P X G T y u w cg a bs (postCells D)) :=
  gen_simple hX (fun c hc => wave_fit hX (hC c hc).1 (hC c hc).2) hne

/-- **C282 (event time).** -/
theorem C282_event {e : ℤ} (hC : ∀ c ∈ eventCells D e, WaveOK P X G T y u w B.level cg a bs c) (hne : eventCells D e ≠ []) {minE maxE : Option ℤ} (hr : Agg.inRange minE maxE e) :
    Inference P X (fun n ω => rowOf (Agg.dynamicAgg (fun i : Fin n => G (X i ω)) (fun i => w (X i ω)) none minE maxE (waveTable B m G T y w cg a bs X D n ω)).effects e)
      (waveAgg P X G T y u w (eventCells D e)) (waveAggInf P X G T y u w cg a bs (eventCells D e)) :=
  gen_event hX (fun c hc => wave_fit hX (hC c hc).1 (hC c hc).2) hne hr

/-- **C282 (calendar period).** -/
theorem C282_period {t : ℤ} (hC : ∀ c ∈ periodCells D t, WaveOK P X G T y u w B.level cg a bs c) (hne : periodCells D t ≠ []) :
    Inference P X (fun n ω => rowOf (Agg.calendarAgg (fun i : Fin n => G (X i ω)) (fun i => w (X i ω)) (waveTable B m G T y w cg a bs X D n ω)).effects t)
      (waveAgg P X G T y u w (periodCells D t)) (waveAggInf P X G T y u w cg a bs (periodCells D t)) :=
  gen_period hX (fun c hc => wave_fit hX (hC c hc).1 (hC c hc).2) hne

/-- **C282 (cohort).** -/
theorem C282_cohort {g : ℤ} (hC : ∀ c ∈ cohortCells D g, WaveOK P X G T y u w B.level cg a bs c) (hne : cohortCells D g ≠ []) :
    Inference P X (fun n ω => rowOf (Agg.groupAgg (fun i : Fin n => G (X i ω)) (fun i => w (X i ω)) none (waveTable B m G T y w cg a bs X D n ω)).effects g)
      (Agg.plainMean ((cohortCells D g).map fun c => waveATT P X G T y u w c.1 c.2))
      fun z => Agg.plainMean ((cohortCells D g).map fun c => waveInfluence P X G T y w cg a c.1 c.2 (bs c) z) :=
  gen_cohort hX (fun c hc => wave_fit hX (hC c hc).1 (hC c hc).2) hne

/-- **C282 (dynamic aggregation, overall effect).** -/
theorem C282_dynamic (evs : List ℤ) {minE maxE : Option ℤ} (hev : evs.Pairwise (· < ·))
    (hmem : ∀ e, e ∈ evs ↔ 0 ≤ e ∧ (∃ c ∈ D, c.2 - c.1 = e) ∧ Agg.inRange minE maxE e) (hne : evs ≠ [])
    (hC : ∀ e ∈ evs, ∀ c ∈ eventCells D e, WaveOK P X G T y u w B.level cg a bs c) :
    Inference P X (fun n ω => repOf (Agg.dynamicAgg (fun i : Fin n => G (X i ω)) (fun i => w (X i ω)) none minE maxE (waveTable B m G T y w cg a bs X D n ω)).overall
        (Agg.dynamicAgg (fun i : Fin n => G (X i ω)) (fun i => w (X i ω)) none minE maxE (waveTable B m G T y w cg a bs X D n ω)).overallPsi)
      (Agg.plainMean (evs.map fun e => waveAgg P X G T y u w (eventCells D e)))
      fun z => Agg.plainMean (evs.map fun e => waveAggInf P X G T y u w cg a bs (eventCells D e) z) :=
  gen_dynamic hX evs hev hmem hne fun e he c hc => wave_fit hX (hC e he c hc).1 (hC e he c hc).2

/-- **C282 (calendar aggregation, overall effect).** -/
theorem C282_calendar (ts : List ℤ) (hts : ts.Pairwise (· < ·)) (hmem : ∀ t, t ∈ ts ↔ ∃ c ∈ D, c.2 = t ∧ c.1 ≤ t) (hne : ts ≠ [])
    (hC : ∀ c ∈ postCells D, WaveOK P X G T y u w B.level cg a bs c) :
    Inference P X (fun n ω => repOf (Agg.calendarAgg (fun i : Fin n => G (X i ω)) (fun i => w (X i ω)) (waveTable B m G T y w cg a bs X D n ω)).overall
        (Agg.calendarAgg (fun i : Fin n => G (X i ω)) (fun i => w (X i ω)) (waveTable B m G T y w cg a bs X D n ω)).overallPsi)
      (Agg.plainMean (ts.map fun t => waveAgg P X G T y u w (periodCells D t)))
      fun z => Agg.plainMean (ts.map fun t => waveAggInf P X G T y u w cg a bs (periodCells D t) z) :=
  gen_calendar hX ts hts hmem hne fun c hc => wave_fit hX (hC c hc).1 (hC c hc).2

/-- **C282 (group aggregation, overall effect).** -/
theorem C282_group (gs : List ℤ) (hgs : gs.Pairwise (· < ·)) (hmem : ∀ g, g ∈ gs ↔ ∃ c ∈ D, c.1 = g) (hne : gs ≠ []) (hpost : ∀ g ∈ gs, cohortCells D g ≠ [])
    (hC : ∀ c ∈ postCells D, WaveOK P X G T y u w B.level cg a bs c) :
    Inference P X (fun n ω => repOf (Agg.groupAgg (fun i : Fin n => G (X i ω)) (fun i => w (X i ω)) none (waveTable B m G T y w cg a bs X D n ω)).overall
        (Agg.groupAgg (fun i : Fin n => G (X i ω)) (fun i => w (X i ω)) none (waveTable B m G T y w cg a bs X D n ω)).overallPsi)
      (shareMean P X G w id (fun g => Agg.plainMean ((cohortCells D g).map fun c => waveATT P X G T y u w c.1 c.2)) gs)
      (shareInfluence P X G w id (fun g => Agg.plainMean ((cohortCells D g).map fun c => waveATT P X G T y u w c.1 c.2))
        (fun g z => Agg.plainMean ((cohortCells D g).map fun c => waveInfluence P X G T y w cg a c.1 c.2 (bs c) z)) gs) :=
  gen_group hX gs hgs hmem hne hpost fun c hc => wave_fit hX (hC c hc).1 (hC c hc).2

end

/-! ## A population: observations of cohorts 2, 3 and never in the periods 1 to 3, with a noise that drives weights and outcomes -/

/-- Cohort, period and noise. -/
abbrev Waves := Fin 3 × Fin 3 × Bool

def wvG (z : Waves) : WithTop ℤ := match z.1 with
  | 0 => ((2 : ℤ) : WithTop ℤ)
  | 1 => ((3 : ℤ) : WithTop ℤ)
  | 2 => ⊤

def wvT (z : Waves) : ℤ := (z.2.1.val : ℤ) + 1
def wvW (z : Waves) : ℝ := 1 + num z.2.2
def wvU (z : Waves) : ℝ := 2 * wvT z + 3 * stStart z.1 + num z.2.2
noncomputable def wvY (z : Waves) : ℝ := if wvG z ≤ (wvT z : WithTop ℤ) then wvU z + 2 * wvT z + (if stStart z.1 = 3 then 4 else 0) else wvU z

theorem wv_pop (f : Waves → ℝ) : pop (draws Waves) draw f = (∑ k : Fin 3, ∑ j : Fin 3, (f (k, j, true) + f (k, j, false))) / 18 := by
  rw [draws_pop]
  simp only [Fintype.sum_prod_type, Fintype.sum_bool, Fintype.card_prod, Fintype.card_bool, Fintype.card_fin]
  norm_num

theorem wv_g (f : Waves → ℝ) (k j : Fin 3) (hk : k ≠ 2) (g s : ℤ) (hg : g = stStart k) (hs : s = (j.val : ℤ) + 1) :
    pop (draws Waves) draw (fun z => wvW z * gAt wvG wvT g s z * f z) = (2 * f (k, j, true) + f (k, j, false)) / 18 := by
  subst hg hs
  rw [wv_pop]
  fin_cases k <;> fin_cases j <;> simp [gAt, wvG, wvT, wvW, num, stStart, Fin.sum_univ_three] at hk ⊢ <;> norm_num

theorem wv_gw (k j : Fin 3) (hk : k ≠ 2) (g s : ℤ) (hg : g = stStart k) (hs : s = (j.val : ℤ) + 1) : pop (draws Waves) draw (fun z => wvW z * gAt wvG wvT g s z) = 1 / 6 := by
  have := wv_g (fun _ => 1) k j hk g s hg hs
  simp only [mul_one] at this
  rw [this]
  norm_num

/-- Comparison cohorts of the three cells after treatment. -/
def wvComp (g t : ℤ) (k : Fin 3) : Bool := decide (k = 2) || (decide (k = 1) && decide (g = 2 ∧ t = 2))

theorem wv_c (f : Waves → ℝ) (g t : ℤ) (h : (g, t) ∈ [((2 : ℤ), (2 : ℤ)), (2, 3), (3, 3)]) (j : Fin 3) (s : ℤ) (hs : s = (j.val : ℤ) + 1) :
    pop (draws Waves) draw (fun z => wvW z * cAt wvG wvT .notYetTreated 0 g t (g - 1) s z * f z) =
      (∑ k : Fin 3, if wvComp g t k then 2 * f (k, j, true) + f (k, j, false) else 0) / 18 := by
  subst hs
  rw [wv_pop]
  simp only [List.mem_cons, Prod.mk.injEq, List.not_mem_nil, or_false] at h
  have e1 : ∀ p q : ℤ, ((p : WithTop ℤ) < (q : WithTop ℤ)) ↔ p < q := fun p q => WithTop.coe_lt_coe
  have e2 : ∀ p q : ℤ, ((p : WithTop ℤ) = (q : WithTop ℤ)) ↔ p = q := fun p q => WithTop.coe_inj
  have e3 : ∀ p : ℤ, (⊤ : WithTop ℤ) ≠ (p : WithTop ℤ) := fun p => WithTop.top_ne_coe
  have e4 : ∀ p : ℤ, (p : WithTop ℤ) < ⊤ := fun p => WithTop.coe_lt_top p
  have c0 : ∀ j p, wvG (0, j, p) = ((2 : ℤ) : WithTop ℤ) := fun _ _ => rfl
  have c1 : ∀ j p, wvG (1, j, p) = ((3 : ℤ) : WithTop ℤ) := fun _ _ => rfl
  have c2 : ∀ j p, wvG (2, j, p) = ⊤ := fun _ _ => rfl
  have k0 : wvComp 2 2 0 = false ∧ wvComp 2 2 1 = true ∧ wvComp 2 2 2 = true := by decide
  have k1 : wvComp 2 3 0 = false ∧ wvComp 2 3 1 = false ∧ wvComp 2 3 2 = true := by decide
  have k2 : wvComp 3 3 0 = false ∧ wvComp 3 3 1 = false ∧ wvComp 3 3 2 = true := by decide
  rcases h with ⟨rfl, rfl⟩ | ⟨rfl, rfl⟩ | ⟨rfl, rfl⟩ <;> rcases (by decide +revert : j = 0 ∨ j = 1 ∨ j = 2) with rfl | rfl | rfl <;>
    simp only [Fin.sum_univ_three, cAt, IsComparison, c0, c1, c2, e1, e2, ne_eq, e3, e4, k0, k1, k2] <;>
    norm_num [wvT, wvW, num]

theorem wv_cw (g t : ℤ) (h : (g, t) ∈ [((2 : ℤ), (2 : ℤ)), (2, 3), (3, 3)]) (j : Fin 3) (s : ℤ) (hs : s = (j.val : ℤ) + 1) :
    pop (draws Waves) draw (fun z => wvW z * cAt wvG wvT .notYetTreated 0 g t (g - 1) s z) = (∑ k : Fin 3, if wvComp g t k then 3 else 0) / 18 := by
  have := wv_c (fun _ => 1) g t h j s hs
  simp only [mul_one] at this
  rw [this]
  congr 1
  refine Finset.sum_congr rfl fun k _ => ?_
  split_ifs <;> norm_num

theorem wv_ok (c : ℤ × ℤ) (hc : c ∈ postCells stCells) : WaveOK (draws Waves) draw wvG wvT wvY wvU wvW Bounds.code.level .notYetTreated 0 stB c := by
  obtain ⟨g, t⟩ := c
  have h : (g, t) ∈ [((2 : ℤ), (2 : ℤ)), (2, 3), (3, 3)] := by
    have e : postCells stCells = [(2, 2), (2, 3), (3, 3)] := by decide
    rwa [e] at hc
  have hk : ∃ k j j' : Fin 3, k ≠ 2 ∧ g = stStart k ∧ t = (j.val : ℤ) + 1 ∧ g - 1 = (j'.val : ℤ) + 1 := by
    simp only [List.mem_cons, Prod.mk.injEq, List.not_mem_nil, or_false] at h
    rcases h with ⟨rfl, rfl⟩ | ⟨rfl, rfl⟩ | ⟨rfl, rfl⟩
    · exact ⟨0, 1, 0, by decide, by decide, by decide, by decide⟩
    · exact ⟨0, 2, 0, by decide, by decide, by decide, by decide⟩
    · exact ⟨1, 2, 1, by decide, by decide, by decide, by decide⟩
  obtain ⟨k, j, j', hk2, hg, ht, hb⟩ := hk
  have g1 := wv_gw k j hk2 g t hg ht
  have g2 := wv_gw k j' hk2 g (g - 1) hg hb
  have c1 := wv_cw g t h j t ht
  have c2 := wv_cw g t h j' (g - 1) hb
  have hp : (3 : ℝ) ≤ ∑ k : Fin 3, if wvComp g t k then 3 else 0 := by
    rw [Fin.sum_univ_three]
    have : wvComp g t 2 = true := by simp [wvComp]
    simp only [this, if_true]
    split_ifs <;> norm_num
  constructor
  · refine ⟨fun z => ?_, fun A => Set.Finite.measurableSet (Set.toFinite _), measurable_of_finite _, draws_sq _, draws_sq _, ?_, ?_, ?_, ?_⟩
    · unfold wvW num
      split_ifs <;> norm_num
    · simp only [List.mem_cons, Prod.mk.injEq, List.not_mem_nil, or_false] at h
      rcases h with ⟨rfl, rfl⟩ | ⟨rfl, rfl⟩ | ⟨rfl, rfl⟩ <;> simp [stB]
    · intro s hs
      simp only [List.mem_cons, List.not_mem_nil, or_false, stB] at hs
      rcases hs with rfl | rfl
      · rw [g1]; norm_num
      · rw [g2]; norm_num
    · intro s hs
      simp only [List.mem_cons, List.not_mem_nil, or_false, stB] at hs
      simp only [stB]
      rcases hs with rfl | rfl
      · rw [c1]; positivity
      · rw [c2]; positivity
    · simp only [stB, g1, g2, c1, c2]
      norm_num [Bounds.code]
      linarith
  · refine ⟨fun z hz => ?_, by simp only [stB]; omega, draws_int fun z => wvW z * gAt wvG wvT g t z * wvU z, ?_⟩
    · have : ¬ wvG z ≤ (wvT z : WithTop ℤ) := not_le.2 (by simpa using hz)
      simp [wvY, this]
    · simp only [stB]
      unfold wMean
      rw [wv_g wvU k j hk2 g t hg ht, wv_g wvU k j' hk2 g (g - 1) hg hb, wv_c wvU g t h j t ht, wv_c wvU g t h j' (g - 1) hb, g1, g2, c1, c2]
      have e : ∀ k j, 2 * wvU (k, j, true) + wvU (k, j, false) = 3 * (2 * ((j.val : ℝ) + 1) + 3 * (stStart k : ℝ)) + 2 := fun k j => by
        simp [wvU, wvT, num]; ring
      simp only [e, Fin.sum_univ_three]
      have h2 : wvComp g t 2 = true := by simp [wvComp]
      have h0 : wvComp g t 0 = false := by simp [wvComp]
      rw [h2, h0]
      cases wvComp g t 1 <;> simp <;> field_simp <;> ring

theorem wv_att (k j : Fin 3) (hk : k ≠ 2) (g t : ℤ) (hg : g = stStart k) (ht : t = (j.val : ℤ) + 1) (h : g ≤ t) :
    waveATT (draws Waves) draw wvG wvT wvY wvU wvW g t = 2 * t + if g = 3 then 4 else 0 := by
  unfold waveATT wMean
  rw [wv_g (fun z => wvY z - wvU z) k j hk g t hg ht, wv_gw k j hk g t hg ht]
  have e : ∀ p, wvY (k, j, p) - wvU (k, j, p) = 2 * t + if g = 3 then 4 else 0 := fun p => by
    have h1 : wvG (k, j, p) ≤ (wvT (k, j, p) : WithTop ℤ) := by
      have : wvG (k, j, p) = (g : WithTop ℤ) := by
        subst hg
        fin_cases k <;> simp [wvG, stStart] at hk ⊢
      rw [this]
      exact WithTop.coe_le_coe.2 (by simpa [wvT, ht] using h)
    unfold wvY
    rw [if_pos h1, ← hg]
    have : wvT (k, j, p) = t := by simp [wvT, ht]
    rw [this]
    ring
  rw [e, e]
  ring

theorem wv_values : waveATT (draws Waves) draw wvG wvT wvY wvU wvW 2 2 = 4 ∧ waveATT (draws Waves) draw wvG wvT wvY wvU wvW 2 3 = 6 ∧
    waveATT (draws Waves) draw wvG wvT wvY wvU wvW 3 3 = 10 := by
  rw [wv_att 0 1 (by decide) 2 2 (by decide) (by decide) (by decide), wv_att 0 2 (by decide) 2 3 (by decide) (by decide) (by decide),
    wv_att 1 2 (by decide) 3 3 (by decide) (by decide) (by decide)]
  norm_num

theorem wv_share (g : ℤ) (hg : g = 2 ∨ g = 3) : popShare (draws Waves) draw wvG wvW g = 1 / 2 := by
  unfold popShare
  rw [wv_pop]
  rcases hg with rfl | rfl <;> simp [isG, wvG, wvW, num, Fin.sum_univ_three] <;> norm_num

theorem wv_sub : ∀ c ∈ postCells stCells, c = (2, 2) ∨ c = (2, 3) ∨ c = (3, 3) := by decide

/-- A sample: cohort means 9 and 4 after and before, comparison means 7 and 5; one row outside. -/
example (m : CrossMeth) :
    cellEstW .code m ![some true, some true, some false, some false, none] ![9, 4, 7, 5, 100] ![true, false, true, false, true] ![1, 1, 2, 1, 1] = some 3 := by
  have h := (C281_sample (B := .code) (m := m) (s := ![some true, some true, some false, some false, none]) (y := ![9, 4, 7, 5, 100])
    (post := ![true, false, true, false, true]) (w := ![1, 1, 2, 1, 1]) (fun i => by fin_cases i <;> norm_num) (fun a b => by
      rw [Finset.sum_filter]
      cases a <;> cases b <;> simp [Fin.sum_univ_succ]) (by
      rw [Finset.sum_filter, Finset.sum_filter]
      simp [Fin.sum_univ_succ]
      norm_num [Bounds.code])).1
  rw [h]
  unfold wavg
  simp only [Finset.sum_filter]
  simp [Fin.sum_univ_succ]
  norm_num

theorem wv_inf : waveInfluence (draws Waves) draw wvG wvT wvY wvW .notYetTreated 0 2 3 1 (0, 2, false) = -4 := by
  unfold waveInfluence wMean
  have e1 : gAt wvG wvT 2 3 (0, 2, false) = 1 := by simp [gAt, wvG, wvT]
  have e2 : gAt wvG wvT 2 1 (0, 2, false) = 0 := by simp [gAt, wvG, wvT]
  have e3 : ∀ s, cAt wvG wvT .notYetTreated 0 2 3 1 s (0, 2, false) = 0 := fun s => by simp [cAt, wvG, wvT]
  simp only [e1, e2, e3]
  rw [wv_g wvY 0 2 (by decide) 2 3 (by decide) (by decide), wv_gw 0 2 (by decide) 2 3 (by decide) (by decide)]
  have h : ∀ p, wvY (0, 2, p) = 18 + num p := fun p => by
    have : wvG (0, 2, p) ≤ (wvT (0, 2, p) : WithTop ℤ) := WithTop.coe_le_coe.2 (by simp [wvT])
    unfold wvY
    rw [if_pos this]
    simp [wvU, wvT, stStart]
    ring
  rw [h, h]
  norm_num [wvW, num]

/-- A cell: limit 6, positive variance. -/
example (m : CrossMeth) : Inference (draws Waves) draw (fun n ω => repOf (waveEst .code m wvG wvT wvY wvW .notYetTreated 0 stB draw (2, 3) n ω)
      (waveInf .code m wvG wvT wvY wvW .notYetTreated 0 stB draw (2, 3) n ω)) 6 (waveInfluence (draws Waves) draw wvG wvT wvY wvW .notYetTreated 0 2 3 1) ∧
    0 < pop (draws Waves) draw fun z => waveInfluence (draws Waves) draw wvG wvT wvY wvW .notYetTreated 0 2 3 1 z ^ 2 := by
  have hc := wv_ok (2, 3) (by decide)
  refine ⟨wv_values.2.1 ▸ C281_cell (m := m) draws_sampling hc.1 hc.2, ?_⟩
  rw [wv_pop]
  refine div_pos (Finset.sum_pos' (fun k _ => Finset.sum_nonneg fun j _ => by positivity) ⟨0, Finset.mem_univ _, Finset.sum_pos' (fun j _ => by positivity)
    ⟨2, Finset.mem_univ _, ?_⟩⟩) (by norm_num)
  rw [wv_inf]
  positivity

example (m : CrossMeth) : ∃ ψ, Inference (draws Waves) draw (fun n ω => repOf
      (Agg.simpleAgg (fun i : Fin n => wvG (draw i ω)) (fun i => wvW (draw i ω)) none (waveTable .code m wvG wvT wvY wvW .notYetTreated 0 stB draw stCells n ω)).1
      (Agg.simpleAgg (fun i : Fin n => wvG (draw i ω)) (fun i => wvW (draw i ω)) none (waveTable .code m wvG wvT wvY wvW .notYetTreated 0 stB draw stCells n ω)).2) (20 / 3) ψ := by
  have hv : waveAgg (draws Waves) draw wvG wvT wvY wvU wvW (postCells stCells) = 20 / 3 := by
    have e : postCells stCells = [(2, 2), (2, 3), (3, 3)] := by decide
    unfold waveAgg shareMean
    simp only [e, List.map_cons, List.map_nil, wv_values.1, wv_values.2.1, wv_values.2.2, wv_share 2 (.inl rfl), wv_share 3 (.inr rfl)]
    norm_num
  exact ⟨_, hv ▸ C282_simple draws_sampling wv_ok (by decide)⟩

theorem wv_events : waveAgg (draws Waves) draw wvG wvT wvY wvU wvW (eventCells stCells 0) = 7 ∧ waveAgg (draws Waves) draw wvG wvT wvY wvU wvW (eventCells stCells 1) = 6 ∧
    waveAgg (draws Waves) draw wvG wvT wvY wvU wvW (periodCells stCells 2) = 4 ∧ waveAgg (draws Waves) draw wvG wvT wvY wvU wvW (periodCells stCells 3) = 8 := by
  have e0 : eventCells stCells 0 = [(2, 2), (3, 3)] := by decide
  have e1 : eventCells stCells 1 = [(2, 3)] := by decide
  have e2 : periodCells stCells 2 = [(2, 2)] := by decide
  have e3 : periodCells stCells 3 = [(2, 3), (3, 3)] := by decide
  unfold waveAgg shareMean
  simp only [e0, e1, e2, e3, List.map_cons, List.map_nil, wv_values.1, wv_values.2.1, wv_values.2.2, wv_share 2 (.inl rfl), wv_share 3 (.inr rfl)]
  norm_num

theorem wv_cohorts : (Agg.plainMean ((cohortCells stCells 2).map fun c => waveATT (draws Waves) draw wvG wvT wvY wvU wvW c.1 c.2) : ℝ) = 5 ∧
    (Agg.plainMean ((cohortCells stCells 3).map fun c => waveATT (draws Waves) draw wvG wvT wvY wvU wvW c.1 c.2) : ℝ) = 10 := by
  have e2 : cohortCells stCells 2 = [(2, 2), (2, 3)] := by decide
  have e3 : cohortCells stCells 3 = [(3, 3)] := by decide
  simp only [e2, e3, List.map_cons, List.map_nil, wv_values.1, wv_values.2.1, wv_values.2.2]
  norm_num [Agg.plainMean]

example (m : CrossMeth) : ∃ ψ, Inference (draws Waves) draw (fun n ω => rowOf (Agg.dynamicAgg (fun i : Fin n => wvG (draw i ω)) (fun i => wvW (draw i ω)) none (some (-1)) none
      (waveTable .code m wvG wvT wvY wvW .notYetTreated 0 stB draw stCells n ω)).effects 0) 7 ψ :=
  ⟨_, wv_events.1 ▸ C282_event draws_sampling (fun c hc => wv_ok c (by revert c; decide)) (by decide) (by simp [Agg.inRange])⟩

example (m : CrossMeth) : ∃ ψ, Inference (draws Waves) draw (fun n ω => rowOf (Agg.calendarAgg (fun i : Fin n => wvG (draw i ω)) (fun i => wvW (draw i ω))
      (waveTable .code m wvG wvT wvY wvW .notYetTreated 0 stB draw stCells n ω)).effects 3) 8 ψ :=
  ⟨_, wv_events.2.2.2 ▸ C282_period draws_sampling (fun c hc => wv_ok c (by revert c; decide)) (by decide)⟩

example (m : CrossMeth) : ∃ ψ, Inference (draws Waves) draw (fun n ω => rowOf (Agg.groupAgg (fun i : Fin n => wvG (draw i ω)) (fun i => wvW (draw i ω)) none
      (waveTable .code m wvG wvT wvY wvW .notYetTreated 0 stB draw stCells n ω)).effects 2) 5 ψ :=
  ⟨_, wv_cohorts.1 ▸ C282_cohort draws_sampling (fun c hc => wv_ok c (by revert c; decide)) (by decide)⟩

example (m : CrossMeth) : ∃ ψ, Inference (draws Waves) draw (fun n ω => repOf
      (Agg.dynamicAgg (fun i : Fin n => wvG (draw i ω)) (fun i => wvW (draw i ω)) none none none (waveTable .code m wvG wvT wvY wvW .notYetTreated 0 stB draw stCells n ω)).overall
      (Agg.dynamicAgg (fun i : Fin n => wvG (draw i ω)) (fun i => wvW (draw i ω)) none none none
        (waveTable .code m wvG wvT wvY wvW .notYetTreated 0 stB draw stCells n ω)).overallPsi) (13 / 2) ψ := by
  have hv : (Agg.plainMean ([0, 1].map fun e => waveAgg (draws Waves) draw wvG wvT wvY wvU wvW (eventCells stCells e)) : ℝ) = 13 / 2 := by
    simp only [List.map_cons, List.map_nil, wv_events.1, wv_events.2.1]
    norm_num [Agg.plainMean]
  refine ⟨_, hv ▸ C282_dynamic draws_sampling [0, 1] (by decide) (fun e => ?_) (by decide) fun e he c hc => wv_ok c ?_⟩
  · simp only [stCells, Agg.inRange, List.mem_cons, List.not_mem_nil, or_false, exists_eq_or_imp, exists_eq_left]
    simp
    omega
  · revert c
    revert e
    decide

example (m : CrossMeth) : ∃ ψ, Inference (draws Waves) draw (fun n ω => repOf
      (Agg.calendarAgg (fun i : Fin n => wvG (draw i ω)) (fun i => wvW (draw i ω)) (waveTable .code m wvG wvT wvY wvW .notYetTreated 0 stB draw stCells n ω)).overall
      (Agg.calendarAgg (fun i : Fin n => wvG (draw i ω)) (fun i => wvW (draw i ω))
        (waveTable .code m wvG wvT wvY wvW .notYetTreated 0 stB draw stCells n ω)).overallPsi) 6 ψ := by
  have hv : (Agg.plainMean ([2, 3].map fun t => waveAgg (draws Waves) draw wvG wvT wvY wvU wvW (periodCells stCells t)) : ℝ) = 6 := by
    simp only [List.map_cons, List.map_nil, wv_events.2.2.1, wv_events.2.2.2]
    norm_num [Agg.plainMean]
  refine ⟨_, hv ▸ C282_calendar draws_sampling [2, 3] (by decide) (fun e => ?_) (by decide) wv_ok⟩
  simp only [stCells, List.mem_cons, List.not_mem_nil, or_false, exists_eq_or_imp, exists_eq_left]
  omega

example (m : CrossMeth) : ∃ ψ, Inference (draws Waves) draw (fun n ω => repOf
      (Agg.groupAgg (fun i : Fin n => wvG (draw i ω)) (fun i => wvW (draw i ω)) none (waveTable .code m wvG wvT wvY wvW .notYetTreated 0 stB draw stCells n ω)).overall
      (Agg.groupAgg (fun i : Fin n => wvG (draw i ω)) (fun i => wvW (draw i ω)) none
        (waveTable .code m wvG wvT wvY wvW .notYetTreated 0 stB draw stCells n ω)).overallPsi) (15 / 2) ψ := by
  have hv : shareMean (draws Waves) draw wvG wvW id (fun g => Agg.plainMean ((cohortCells stCells g).map fun c => waveATT (draws Waves) draw wvG wvT wvY wvU wvW c.1 c.2)) [2, 3] =
      15 / 2 := by
    unfold shareMean
    simp only [List.map_cons, List.map_nil, wv_cohorts.1, wv_cohorts.2, id, wv_share 2 (.inl rfl), wv_share 3 (.inr rfl)]
    norm_num
  refine ⟨_, hv ▸ C282_group draws_sampling [2, 3] (by decide) (fun g => ?_) (by decide) (by decide) wv_ok⟩
  simp only [stCells, List.mem_cons, List.not_mem_nil, or_false, exists_eq_or_imp, exists_eq_left]
  omega

end Verif.Asym
