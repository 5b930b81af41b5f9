import Verif.Asym.DddRCNoCov
import Verif.Asym.CellRC

set_option linter.unusedSectionVars false
set_option linter.unusedSimpArgs false

/-!
# C283: cells of `ddd` with several periods, without covariates, in large samples
-/

namespace Verif.Asym

open MeasureTheory ProbabilityTheory Filter Topology Verif.Honest Verif.DR Verif.Triple

variable {Ω 𝓧 : Type*} [MeasurableSpace Ω] [MeasurableSpace 𝓧]

/-! ## Specification

A unit belongs to a cohort `G` (`⊤` is never treated), is eligible or not, `E`, and has an outcome `y s` in every period `s`. -/

/-- 1 for eligible (`q = true`) or ineligible units of cohort `g`. -/
def inCohort (G : 𝓧 → WithTop ℤ) (E : 𝓧 → Bool) (g : ℤ) (q : Bool) (z : 𝓧) : ℝ := if G z = (g : WithTop ℤ) ∧ E z = q then 1 else 0

/-- 1 for eligible or ineligible units that are never treated. -/
def inNever (G : 𝓧 → WithTop ℤ) (E : 𝓧 → Bool) (q : Bool) (z : 𝓧) : ℝ := if G z = ⊤ ∧ E z = q then 1 else 0

/-- The mean effect in period `t` on the eligible units of cohort `g`. -/
noncomputable def eligibleATT (P : Measure Ω) (X : ℕ → Ω → 𝓧) (G : 𝓧 → WithTop ℤ) (E : 𝓧 → Bool) (y u : ℤ → 𝓧 → ℝ) (g t : ℤ) : ℝ :=
  wMean P X (inCohort G E g true) fun z => y t z - u t z

/-- The population: units in the four groups, finite second moments, no treatment of ineligible and never-treated units in the two periods and of the cohort in the base
period, the untreated change of the eligible of the cohort is that of its ineligible plus the difference of the never treated, and in each comparison the share of the
eligible of the cohort is below the trimming level. -/
structure TripleCell (P : Measure Ω) (X : ℕ → Ω → 𝓧) (G : 𝓧 → WithTop ℤ) (E : 𝓧 → Bool) (y u : ℤ → 𝓧 → ℝ) (level : ℝ) (g t b : ℤ) : Prop where
  measG : ∀ A : Set (WithTop ℤ), MeasurableSet (G ⁻¹' A)
  measE : Measurable E
  sqY : SqInt P X fun z => y t z - y b z
  intU : Integrable (fun ω => inCohort G E g true (X 0 ω) * (u t (X 0 ω) - u b (X 0 ω))) P
  cohort : ∀ q, 0 < pop P X (inCohort G E g q)
  never : ∀ q, 0 < pop P X (inNever G E q)
  base : ∀ z, G z = (g : WithTop ℤ) ∨ G z = ⊤ → y b z = u b z
  untreated : ∀ z, (G z = (g : WithTop ℤ) ∧ E z = false) ∨ G z = ⊤ → y t z = u t z
  trends : wMean P X (inCohort G E g true) (fun z => u t z - u b z) = wMean P X (inCohort G E g false) (fun z => u t z - u b z) +
    (wMean P X (inNever G E true) (fun z => u t z - u b z) - wMean P X (inNever G E false) fun z => u t z - u b z)
  share : pop P X (inCohort G E g true) < level * (pop P X (inCohort G E g true) + pop P X (inCohort G E g false)) ∧
    ∀ q, pop P X (inCohort G E g true) < level * (pop P X (inCohort G E g true) + pop P X (inNever G E q))

/-- Influence of a unit on the difference of the differences of the four mean changes. -/
noncomputable def tripleCellInfluence (P : Measure Ω) (X : ℕ → Ω → 𝓧) (G : 𝓧 → WithTop ℤ) (E : 𝓧 → Bool) (y : ℤ → 𝓧 → ℝ) (g t b : ℤ) (z : 𝓧) : ℝ :=
  let dev := fun e : 𝓧 → ℝ => e z * (y t z - y b z - wMean P X e fun z => y t z - y b z) / pop P X e
  (dev (inCohort G E g true) - dev (inCohort G E g false)) - (dev (inNever G E true) - dev (inNever G E false))

/-! ## Model -/

section
variable {ι : Type*} [Fintype ι] (s : ι → Option Bool) (elig : ι → Bool)

/-- `subgroup` of a row of the cell, `ddd_mp.py:584-590`. -/
def quad (i : Valid s) : ℕ := if s i.1 = some true then (if elig i then 4 else 3) else (if elig i then 2 else 1)

/-- A cell with one comparison cohort on a balanced panel, `ddd_mp.py:392-413, 496-519, 580-627`, without covariates: `ddd_panel` on the units of the cell (no weights are
handed on), influence values times `n_units / len(common_ids)`, zero for the other units.  `s` tells who is in the cohort and in the comparison cohort. -/
noncomputable def tripleCell (hess : ∀ c, (Sub (quad s elig) c → ℝ) → Unit → Unit → ℝ) (m : Est) (hi level : ℝ) (y1 y0 : ι → ℝ) : Option (ℝ × (ι → ℝ)) :=
  if (∃ i, s i = some false) ∧ ∃ i, s i = some true ∧ elig i = true then
    match dddPanel (plainFits (quad s elig) hess) m hi level (fun i => y1 i.1) (fun i => y0 i.1) ones (fun _ => 1) with
    | .ok r => some (r.1, fun i => if h : (s i).isSome = true then (Fintype.card ι : ℝ) / (Fintype.card (Valid s) : ℝ) * r.2 ⟨i, h⟩ else 0)
    | .error _ => none
  else none

end

/-- Who is in the cell with `control_group="nevertreated"`, `ddd_mp.py:467-477`. -/
def neverRole (G : 𝓧 → WithTop ℤ) (g : ℤ) (z : 𝓧) : Option Bool := if G z = (g : WithTop ℤ) then some true else if G z = ⊤ then some false else none

/-- A family of information matrices, one for every sample. -/
abbrev HessFam (G : 𝓧 → WithTop ℤ) (E : 𝓧 → Bool) (g : ℤ) (X : ℕ → Ω → 𝓧) :=
  ∀ (n : ℕ) (ω : Ω) (c : ℕ), (Sub (quad (fun i : Fin n => neverRole G g (X i ω)) fun i => E (X i ω)) c → ℝ) → Unit → Unit → ℝ

/-- The cell of cohort `g` and period `t` with base period `b` on the first `n` units, never-treated units as comparison. -/
noncomputable def tripleCellReport (G : 𝓧 → WithTop ℤ) (E : 𝓧 → Bool) (y : ℤ → 𝓧 → ℝ) (g t b : ℤ) (X : ℕ → Ω → 𝓧) (hess : HessFam G E g X) (m : Est) (hi level : ℝ)
    (n : ℕ) (ω : Ω) : Option (ℝ × (Fin n → ℝ)) :=
  tripleCell (fun i : Fin n => neverRole G g (X i ω)) (fun i => E (X i ω)) (hess n ω) m hi level (fun i => y t (X i ω)) (fun i => y b (X i ω))

/-! ## One comparison -/

section
variable {ι : Type*} [Fintype ι] {sg : ι → ℕ}

/-- Influence of a unit on the weighted mean of a subgroup, and the mean. -/
noncomputable def sgAvg (sg : ι → ℕ) (w dy : ι → ℝ) (c : ℕ) : ℝ := wavg w (fun i => sg i = c) dy
noncomputable def sgAvgIF (sg : ι → ℕ) (w dy : ι → ℝ) (c : ℕ) (i : ι) : ℝ := DR.NoCov.avgIF w (fun i => sg i = c) dy i

theorem comp_val (hess : ∀ c, (Sub sg c → ℝ) → Unit → Unit → ℝ) (m : Est) (hi level : ℝ) (hi0 : 0 < hi) (hi1 : hi < 1) {c : ℕ} (hc : c ≠ 4) (W dy : ι → ℝ)
    (hw : ∀ i, 0 ≤ W i) (h4 : 0 < ∑ i with sg i = 4, W i) (h0 : 0 < ∑ i with sg i = c, W i)
    (hs : ∑ i with sg i = 4, W i < level * (∑ i with sg i = 4, W i + ∑ i with sg i = c, W i)) :
    ∃ f, compDid (plainFits sg hess).inv m sg c (nuis (plainFits sg hess) m hi level c W ones dy) W ones dy = .ok (sgAvg sg W dy 4 - sgAvg sg W dy c, f) ∧
      ∀ i, ratio sg c * f i = sgAvgIF sg W dy 4 i - sgAvgIF sg W dy c i := by
  have e1 : ∑ i : Sub sg c with pa4 sg c i = true, onSub sg c W i = ∑ i with sg i = 4, W i := sub_arm (sg := sg) c hc W true
  have e0 : ∑ i : Sub sg c with pa4 sg c i = false, onSub sg c W i = ∑ i with sg i = c, W i := sub_arm (sg := sg) c hc W false
  have hne : Nonempty (Sub sg c) := by
    by_contra hcon
    rw [not_nonempty_iff] at hcon
    rw [← e1] at h4
    simp at h4
  have hcard : (0 : ℝ) < Fintype.card (Sub sg c) := by exact_mod_cast Fintype.card_pos
  have t1 : (fun i => onSub sg c W i * dn (pa4 sg c) i) = fun i => if pa4 sg c i = true ∧ onSub sg c (fun _ : ι => true) i = true then onSub sg c W i else 0 := by
    funext i
    unfold dn onSub
    cases pa4 sg c i <;> simp
  have t0 : (fun i => onSub sg c W i * (1 - dn (pa4 sg c) i)) = fun i => if pa4 sg c i = false ∧ onSub sg c (fun _ : ι => true) i = true then onSub sg c W i else 0 := by
    funext i
    unfold dn onSub
    cases pa4 sg c i <;> simp
  have m1 : (DR.mean fun i => onSub sg c W i * dn (pa4 sg c) i) = (∑ i with sg i = 4, W i) / Fintype.card (Sub sg c) := by
    rw [t1, ← e1, Finset.sum_filter]
    unfold DR.mean
    congr 1
    exact Finset.sum_congr rfl fun i _ => by simp [onSub]
  have m0 : (DR.mean fun i => onSub sg c W i * (1 - dn (pa4 sg c) i)) = (∑ i with sg i = c, W i) / Fintype.card (Sub sg c) := by
    rw [t0, ← e0, Finset.sum_filter]
    unfold DR.mean
    congr 1
    exact Finset.sum_congr rfl fun i _ => by simp [onSub]
  have p1 : 0 < DR.mean fun i => onSub sg c W i * dn (pa4 sg c) i := by rw [m1]; exact div_pos h4 hcard
  have p0 : 0 < DR.mean fun i => onSub sg c W i * (1 - dn (pa4 sg c) i) := by rw [m0]; exact div_pos h0 hcard
  have hsh : treatedShare (onSub sg c W) (pa4 sg c) = (∑ i with sg i = 4, W i) / (∑ i with sg i = 4, W i + ∑ i with sg i = c, W i) := by
    unfold treatedShare
    rw [sum_split (pa4 sg c), e1, e0]
  have hfit : ∀ β : Unit → ℝ, ∀ i : Sub sg c, fitted (onSub sg c ones) β i = β () := by
    intro β i
    simp [fitted, onSub, ones]
  rw [comp_any hess m hi level hi0 hi1 hc W dy p1 p0 (by rw [hsh, div_lt_iff₀ (add_pos h4 h0)]; exact hs) (by rw [hsh]; exact div_pos h4 (add_pos h4 h0)),
    comp_plain _ .reg (nuis (regFits sg) .reg hi level c W ones dy) W dy _ (fun i => onSub sg c W i * (1 - dn (pa4 sg c) i)) 1
    (Ident.gramOLS (onSub sg c W) (paComp sg c) (onSub sg c ones) (onSub sg c dy) ()) one_ne_zero (comp_wt hi level c hc W ones dy)
    (by rw [comp_wc hi level c hc]; simp only [one_mul]) (fun i => by unfold nuis; simp only [reduceCtorEq, if_false]; exact hfit _ i) p1.ne' p0.ne']
  have q1 : (wmean (fun i => onSub sg c W i * dn (pa4 sg c) i) fun i => dy i.1) = sgAvg sg W dy 4 := by
    rw [t1, wmean_ite]
    refine (sub_wavg (sg := sg) c hc W dy (fun _ => true) true true).trans (wavg_congr _ _ fun i => ?_)
    simp
  have q0 : (wmean (fun i => onSub sg c W i * (1 - dn (pa4 sg c) i)) fun i => dy i.1) = sgAvg sg W dy c := by
    rw [t0, wmean_ite]
    refine (sub_wavg (sg := sg) c hc W dy (fun _ => true) false true).trans (wavg_congr _ _ fun i => ?_)
    simp
  rw [q1, q0]
  refine ⟨_, rfl, fun i => ?_⟩
  rw [m1, m0]
  have r1 : ratio sg c * scatter sg c (DR.NoCov.avgIF (onSub sg c W) (fun i => pa4 sg c i = true ∧ onSub sg c (fun _ : ι => true) i = true) (onSub sg c dy)) i =
      sgAvgIF sg W dy 4 i := by
    rw [sub_avgIF c hc]
    unfold sgAvgIF
    simp
  have r0 : ratio sg c * scatter sg c (DR.NoCov.avgIF (onSub sg c W) (fun i => pa4 sg c i = false ∧ onSub sg c (fun _ : ι => true) i = true) (onSub sg c dy)) i =
      sgAvgIF sg W dy c i := by
    rw [sub_avgIF c hc]
    unfold sgAvgIF
    simp
  rw [← r1, ← r0, ← mul_sub]
  congr 1
  unfold scatter
  split_ifs with h
  · have v1 : (wavg (onSub sg c W) (fun i => pa4 sg c i = true ∧ onSub sg c (fun _ : ι => true) i = true) (onSub sg c dy)) = sgAvg sg W dy 4 :=
      (sub_wavg (sg := sg) c hc W dy (fun _ => true) true true).trans (wavg_congr _ _ fun i => by simp)
    have v0 : (wavg (onSub sg c W) (fun i => pa4 sg c i = false ∧ onSub sg c (fun _ : ι => true) i = true) (onSub sg c dy)) = sgAvg sg W dy c :=
      (sub_wavg (sg := sg) c hc W dy (fun _ => true) false true).trans (wavg_congr _ _ fun i => by simp)
    have s1 : ∑ i : Sub sg c with pa4 sg c i = true ∧ onSub sg c (fun _ : ι => true) i = true, onSub sg c W i = ∑ i with sg i = 4, W i := by
      rw [← e1]
      refine Finset.sum_congr (Finset.filter_congr fun i _ => ?_) fun _ _ => rfl
      simp [onSub]
    have s0 : ∑ i : Sub sg c with pa4 sg c i = false ∧ onSub sg c (fun _ : ι => true) i = true, onSub sg c W i = ∑ i with sg i = c, W i := by
      rw [← e0]
      refine Finset.sum_congr (Finset.filter_congr fun i _ => ?_) fun _ _ => rfl
      simp [onSub]
    unfold DR.NoCov.avgIF
    rw [v1, v0, s1, s0]
    unfold dn
    have h4' := h4.ne'
    have h0' := h0.ne'
    have hk := hcard.ne'
    have ho : onSub sg c (fun _ : ι => true) ⟨i, h⟩ = true := rfl
    have hy : onSub sg c dy ⟨i, h⟩ = dy i := rfl
    dsimp only
    simp only [ho, hy]
    cases hb : pa4 sg c ⟨i, h⟩
    · simp only [Bool.false_eq_true, if_false, true_and, and_true, if_true, mul_zero, zero_mul, zero_div, sub_zero, mul_one, false_and]
      field_simp
    · simp only [Bool.true_eq_false, if_false, true_and, and_true, if_true, mul_zero, zero_mul, zero_div, sub_zero, mul_one, false_and, sub_self]
      field_simp
  · simp

/-- `ddd_panel` without covariates, by any method: the triple difference of the four weighted means and its influence function. -/
theorem panel_plain (hess : ∀ c, (Sub sg c → ℝ) → Unit → Unit → ℝ) (m : Est) (hi level : ℝ) (hi0 : 0 < hi) (hi1 : hi < 1) (w y1 y0 : ι → ℝ)
    (hs : ∀ i, sg i ∈ [1, 2, 3, 4]) (hw : ∀ i, 0 ≤ w i) (h4 : ∀ c ∈ [1, 2, 3, 4], 0 < ∑ i with sg i = c, w i)
    (hl : ∀ c ∈ [1, 2, 3], ∑ i with sg i = 4, w i < level * (∑ i with sg i = 4, w i + ∑ i with sg i = c, w i)) :
    dddPanel (plainFits sg hess) m hi level y1 y0 ones w = .ok
      (sgAvg sg w (fun i => y1 i - y0 i) 4 - sgAvg sg w (fun i => y1 i - y0 i) 3 - sgAvg sg w (fun i => y1 i - y0 i) 2 + sgAvg sg w (fun i => y1 i - y0 i) 1,
        fun i => sgAvgIF sg w (fun i => y1 i - y0 i) 4 i - sgAvgIF sg w (fun i => y1 i - y0 i) 3 i - sgAvgIF sg w (fun i => y1 i - y0 i) 2 i +
          sgAvgIF sg w (fun i => y1 i - y0 i) 1 i) := by
  have hp4 := h4 4 (by simp)
  have hex : ∃ i, sg i = 4 := by
    by_contra hcon
    push Not at hcon
    rw [Finset.filter_false_of_mem fun i _ h => hcon i h] at hp4
    simp at hp4
  have hmw : 0 < DR.mean w := normalize_pos hw hp4
  have hsum : ∀ S : Finset ι, ∑ i ∈ S, DR.normalize w i = (∑ i ∈ S, w i) / DR.mean w := fun S => by rw [Finset.sum_div]; rfl
  have key : ∀ c ∈ [1, 2, 3], ∃ f, compDid (plainFits sg hess).inv m sg c (nuis (plainFits sg hess) m hi level c (DR.normalize w) ones fun i => y1 i - y0 i) (DR.normalize w) ones
      (fun i => y1 i - y0 i) = .ok (sgAvg sg w (fun i => y1 i - y0 i) 4 - sgAvg sg w (fun i => y1 i - y0 i) c, f) ∧
      ∀ i, ratio sg c * f i = sgAvgIF sg w (fun i => y1 i - y0 i) 4 i - sgAvgIF sg w (fun i => y1 i - y0 i) c i := by
    intro c hcm
    have hc : c ≠ 4 := by rintro rfl; simp at hcm
    have hcm' : c ∈ [1, 2, 3, 4] := List.mem_of_mem_dropLast (l := [1, 2, 3, 4]) hcm
    obtain ⟨f, h1, h2⟩ := comp_val hess m hi level hi0 hi1 hc (DR.normalize w) (fun i => y1 i - y0 i) (fun i => div_nonneg (hw _) hmw.le)
      (by rw [hsum]; exact div_pos hp4 hmw) (by rw [hsum]; exact div_pos (h4 c hcm') hmw) (by
        rw [hsum, hsum, ← add_div, ← mul_div_assoc, div_lt_div_iff_of_pos_right hmw]
        exact hl c hcm)
    refine ⟨f, h1.trans ?_, fun i => (h2 i).trans ?_⟩
    · unfold sgAvg
      rw [wavg_normalize _ _ hmw.ne', wavg_normalize _ _ hmw.ne']
    · unfold sgAvgIF
      have hn : ∀ (S : ι → Prop) [DecidablePred S], DR.NoCov.avgIF (DR.normalize w) S (fun i => y1 i - y0 i) i = DR.NoCov.avgIF w S (fun i => y1 i - y0 i) i :=
        fun S _ => avgIF_scale hmw.ne' S i
      rw [hn, hn]
  obtain ⟨f3, a3, b3⟩ := key 3 (by simp)
  obtain ⟨f2, a2, b2⟩ := key 2 (by simp)
  obtain ⟨f1, a1, b1⟩ := key 1 (by simp)
  unfold dddPanel
  rw [if_neg (by push Not; exact hw), if_neg (by push Not; exact hs), if_neg (not_not.2 hex)]
  unfold allDid
  rw [a3, a2, a1]
  simp only [combine3, Bind.bind, Except.bind, pure, Except.pure, b3, b2, b1, Except.ok.injEq, Prod.mk.injEq]
  refine ⟨by ring, funext fun i => by ring⟩

end

/-! ## Cells -/

section
variable {ι : Type*} [Fintype ι] {s : ι → Option Bool} {elig : ι → Bool}

/-- Number of the subgroup of an arm. -/
def armNo (k : Bool × Bool) : ℕ := if k.1 then (if k.2 then 4 else 3) else if k.2 then 2 else 1

theorem quad_iff (i : Valid s) (k : Bool × Bool) : quad s elig i = armNo k ↔ decide (s i.1 = some true) = k.1 ∧ elig i = k.2 := by
  obtain ⟨p, q⟩ := k
  unfold quad armNo
  by_cases h : s i.1 = some true <;> cases he : elig i <;> cases p <;> cases q <;> simp [h, he]

theorem quad_sum (f : ι → ℝ) (k : Bool × Bool) : ∑ i : Valid s with quad s elig i = armNo k, f i.1 = ∑ i with s i = some k.1 ∧ elig i = k.2, f i := by
  rw [← valid_sel]
  exact Finset.sum_congr (Finset.filter_congr fun i _ => quad_iff i k) fun _ _ => rfl

theorem quad_avg (dy : ι → ℝ) (k : Bool × Bool) : sgAvg (quad s elig) (fun _ => 1) (fun i : Valid s => dy i.1) (armNo k) = wavg (fun _ => 1) (fun i => s i = some k.1 ∧ elig i = k.2) dy := by
  unfold sgAvg wavg
  rw [quad_sum (fun i => 1 * dy i) k, quad_sum (fun _ => 1) k]

theorem quad_avgIF (dy : ι → ℝ) (k : Bool × Bool) (i : ι) (h : (s i).isSome = true) : (Fintype.card ι : ℝ) / (Fintype.card (Valid s) : ℝ) *
    sgAvgIF (quad s elig) (fun _ => 1) (fun i : Valid s => dy i.1) (armNo k) ⟨i, h⟩ = DR.NoCov.avgIF (fun _ => 1) (fun i => s i = some k.1 ∧ elig i = k.2) dy i := by
  rw [← valid_avgIF k.1 k.2 i h]
  congr 1
  unfold sgAvgIF DR.NoCov.avgIF
  have h1 := quad_iff (elig := elig) (⟨i, h⟩ : Valid s) k
  have h2 : wavg (fun _ : Valid s => (1 : ℝ)) (fun i => quad s elig i = armNo k) (fun i => dy i.1) =
      wavg (fun _ : Valid s => (1 : ℝ)) (fun i => decide (s i.1 = some true) = k.1 ∧ elig i.1 = k.2) (fun i => dy i.1) := wavg_congr _ _ fun i => quad_iff i k
  have h3 : ∑ i : Valid s with quad s elig i = armNo k, (1 : ℝ) = ∑ i : Valid s with decide (s i.1 = some true) = k.1 ∧ elig i.1 = k.2, (1 : ℝ) :=
    Finset.sum_congr (Finset.filter_congr fun i _ => quad_iff i k) fun _ _ => rfl
  rw [h2, h3]
  by_cases h4 : quad s elig ⟨i, h⟩ = armNo k
  · rw [if_pos h4, if_pos (h1.1 h4)]
  · rw [if_neg h4, if_neg fun h5 => h4 (h1.2 h5)]

/-- **C283 (sample).**  When the eligible and the ineligible of the cohort and of the comparison cohort are all represented and in each comparison the share of the eligible of
the cohort is below the trimming level, the cell is, whatever the method, the difference of the differences of the four plain mean changes, with its influence function over
all units. -/
theorem C283_sample (hess : ∀ c, (Sub (quad s elig) c → ℝ) → Unit → Unit → ℝ) (m : Est) (hi level : ℝ) (hi0 : 0 < hi) (hi1 : hi < 1) (y1 y0 : ι → ℝ)
    (h4 : ∀ p q : Bool, ∃ i, s i = some p ∧ elig i = q)
    (hl : ∀ p q : Bool, (p, q) ≠ (true, true) → ((Finset.univ.filter fun i => s i = some true ∧ elig i = true).card : ℝ) <
      level * ((Finset.univ.filter fun i => s i = some true ∧ elig i = true).card + (Finset.univ.filter fun i => s i = some p ∧ elig i = q).card)) :
    tripleCell s elig hess m hi level y1 y0 = some
      ((wavg (fun _ => 1) (fun i => s i = some true ∧ elig i = true) (fun i => y1 i - y0 i) - wavg (fun _ => 1) (fun i => s i = some true ∧ elig i = false) fun i => y1 i - y0 i) -
        (wavg (fun _ => 1) (fun i => s i = some false ∧ elig i = true) (fun i => y1 i - y0 i) - wavg (fun _ => 1) (fun i => s i = some false ∧ elig i = false) fun i => y1 i - y0 i),
      fun i => (DR.NoCov.avgIF (fun _ => 1) (fun i => s i = some true ∧ elig i = true) (fun i => y1 i - y0 i) i -
          DR.NoCov.avgIF (fun _ => 1) (fun i => s i = some true ∧ elig i = false) (fun i => y1 i - y0 i) i) -
        (DR.NoCov.avgIF (fun _ => 1) (fun i => s i = some false ∧ elig i = true) (fun i => y1 i - y0 i) i -
          DR.NoCov.avgIF (fun _ => 1) (fun i => s i = some false ∧ elig i = false) (fun i => y1 i - y0 i) i)) := by
  have hsum : ∀ k : Bool × Bool, ∑ i : Valid s with quad s elig i = armNo k, (1 : ℝ) = (Finset.univ.filter fun i => s i = some k.1 ∧ elig i = k.2).card := fun k => by
    rw [quad_sum (fun _ => 1) k]
    simp
  have hpos : ∀ k : Bool × Bool, 0 < ∑ i : Valid s with quad s elig i = armNo k, (1 : ℝ) := fun k => by
    rw [hsum]
    obtain ⟨i, hi⟩ := h4 k.1 k.2
    exact_mod_cast Finset.card_pos.2 ⟨i, Finset.mem_filter.2 ⟨Finset.mem_univ _, hi⟩⟩
  have hp := panel_plain hess m hi level hi0 hi1 (fun _ : Valid s => 1) (fun i => y1 i.1) (fun i => y0 i.1) (fun i => by
      unfold quad
      split_ifs <;> simp) (fun _ => zero_le_one) (fun c hc => by
      simp only [List.mem_cons, List.not_mem_nil, or_false] at hc
      rcases hc with rfl | rfl | rfl | rfl
      exacts [hpos (false, false), hpos (false, true), hpos (true, false), hpos (true, true)]) (fun c hc => by
      have e4 := hsum (true, true)
      have key : ∀ k : Bool × Bool, k ≠ (true, true) → ∑ i : Valid s with quad s elig i = 4, (1 : ℝ) <
          level * (∑ i : Valid s with quad s elig i = 4, (1 : ℝ) + ∑ i : Valid s with quad s elig i = armNo k, (1 : ℝ)) := fun k hk => by
        rw [hsum k]
        have := hl k.1 k.2 hk
        rw [← e4] at this
        exact this
      simp only [List.mem_cons, List.not_mem_nil, or_false] at hc
      rcases hc with rfl | rfl | rfl
      exacts [key (false, false) (by decide), key (false, true) (by decide), key (true, false) (by decide)])
  unfold tripleCell
  rw [if_pos ⟨(h4 false true).imp fun i h => h.1, h4 true true⟩, hp]
  have ha := fun k => quad_avg (s := s) (elig := elig) (fun i => y1 i - y0 i) k
  have hb := fun k i h => quad_avgIF (s := s) (elig := elig) (fun i => y1 i - y0 i) k i h
  have a4 := ha (true, true)
  have a3 := ha (true, false)
  have a2 := ha (false, true)
  have a1 := ha (false, false)
  have b4 := hb (true, true)
  have b3 := hb (true, false)
  have b2 := hb (false, true)
  have b1 := hb (false, false)
  simp only [armNo, if_true, Bool.false_eq_true, if_false] at a4 a3 a2 a1 b4 b3 b2 b1
  simp only [Option.some.injEq, Prod.mk.injEq]
  refine ⟨?_, funext fun i => ?_⟩
  · rw [a4, a3, a2, a1]
    ring
  · split_ifs with h
    · rw [← b4 i h, ← b3 i h, ← b2 i h, ← b1 i h]
      ring
    · unfold DR.NoCov.avgIF
      have h0 : ∀ a : Bool, s i ≠ some a := fun a ha => h (by rw [ha]; rfl)
      simp [h0]

end

/-! ## The population -/

section
variable {G : 𝓧 → WithTop ℤ} {E : 𝓧 → Bool} {y u : ℤ → 𝓧 → ℝ} {g t b : ℤ}

/-- Indicator of one of the four groups. -/
def qArm (G : 𝓧 → WithTop ℤ) (E : 𝓧 → Bool) (g : ℤ) (k : Bool × Bool) (z : 𝓧) : ℝ := if k.1 then inCohort G E g k.2 z else inNever G E k.2 z

theorem qArm_eq (k : Bool × Bool) (z : 𝓧) : qArm G E g k z = if neverRole G g z = some k.1 ∧ E z = k.2 then 1 else 0 := by
  obtain ⟨p, q⟩ := k
  unfold qArm inCohort inNever neverRole
  by_cases h1 : G z = (g : WithTop ℤ)
  · have h2 : G z ≠ ⊤ := by rw [h1]; exact WithTop.coe_ne_top
    cases p <;> simp [h1]
  · by_cases h2 : G z = ⊤ <;> cases p <;> simp [h1, h2]

/-- Samples with units in the four groups and shares below the trimming level. -/
def qGood (G : 𝓧 → WithTop ℤ) (E : 𝓧 → Bool) (level : ℝ) (g : ℤ) (X : ℕ → Ω → 𝓧) (n : ℕ) : Set Ω :=
  (⋂ k, {ω | 0 < avg X (qArm G E g k) n ω}) ∩ ⋂ k : {k : Bool × Bool // k ≠ (true, true)},
    {ω | avg X (qArm G E g (true, true)) n ω < level * (avg X (qArm G E g (true, true)) n ω + avg X (qArm G E g k) n ω)}

/-- On good samples the cell is the difference of the differences of the four sample means. -/
theorem triple_eq {X : ℕ → Ω → 𝓧} {n : ℕ} {ω : Ω} (hess : HessFam G E g X) (m : Est) {hi level : ℝ} (hi0 : 0 < hi) (hi1 : hi < 1) (h : ω ∈ qGood G E level g X n) :
    tripleCellReport G E y g t b X hess m hi level n ω = some
      (∑ k, armSign k * (avg X (fun z => qArm G E g k z * (y t z - y b z)) n ω / avg X (qArm G E g k) n ω),
        fun i : Fin n => ∑ k, armSign k * (qArm G E g k (X i ω) * (y t (X i ω) - y b (X i ω) - avg X (fun z => qArm G E g k z * (y t z - y b z)) n ω /
          avg X (qArm G E g k) n ω) / avg X (qArm G E g k) n ω)) := by
  obtain ⟨h1, h2⟩ := h
  rw [Set.mem_iInter] at h1 h2
  have hn : 0 < n := by
    rcases Nat.eq_zero_or_pos n with rfl | h
    · have := h1 (true, true)
      simp [avg] at this
    · exact h
  have hn' : (0 : ℝ) < n := by exact_mod_cast hn
  have hk : ∀ (p q : Bool) (i : Fin n), qArm G E g (p, q) (X i ω) = if neverRole G g (X i ω) = some p ∧ E (X i ω) = q then 1 else 0 := fun p q i => qArm_eq (p, q) (X i ω)
  have hA : ∀ p q : Bool, avg X (qArm G E g (p, q)) n ω = ((Finset.univ.filter fun i : Fin n => neverRole G g (X i ω) = some p ∧ E (X i ω) = q).card : ℝ) / n := fun p q => by
    unfold avg
    rw [Finset.sum_range, Finset.card_filter]
    simp only [hk]
    push_cast
    rfl
  have h5 := C283_sample (s := fun i : Fin n => neverRole G g (X i ω)) (elig := fun i => E (X i ω)) (hess n ω) m hi level hi0 hi1 (fun i => y t (X i ω)) (fun i => y b (X i ω))
    (fun p q => by
      have := h1 (p, q)
      rw [Set.mem_ofPred_eq, hA] at this
      have h6 := (div_pos_iff_of_pos_right hn').1 this
      obtain ⟨i, hi⟩ := Finset.card_pos.1 (by exact_mod_cast h6)
      exact ⟨i, (Finset.mem_filter.1 hi).2⟩) (fun p q hpq => by
      have := h2 ⟨(p, q), hpq⟩
      rw [Set.mem_ofPred_eq, hA, hA, ← add_div, ← mul_div_assoc, div_lt_div_iff_of_pos_right hn'] at this
      exact this)
  have hav := fun p q => ind_avg X (fun _ => 1) (fun z => y t z - y b z) (qArm G E g (p, q)) hn _ (hk p q)
  simp only [one_mul] at hav
  unfold tripleCellReport
  rw [h5]
  simp only [Option.some.injEq, Prod.mk.injEq]
  have hs4 : ∀ F : Bool × Bool → ℝ, ∑ k, armSign k * F k = (F (true, true) - F (true, false)) - (F (false, true) - F (false, false)) := fun F => by
    simp only [Fintype.sum_prod_type, Fintype.sum_bool, armSign]
    simp
    ring
  refine ⟨?_, funext fun i => ?_⟩
  · rw [hs4 fun k => avg X (fun z => qArm G E g k z * (y t z - y b z)) n ω / avg X (qArm G E g k) n ω]
    simp only [(hav _ _).1]
  · rw [hs4 fun k => qArm G E g k (X i ω) * (y t (X i ω) - y b (X i ω) - avg X (fun z => qArm G E g k z * (y t z - y b z)) n ω /
          avg X (qArm G E g k) n ω) / avg X (qArm G E g k) n ω]
    simp only [(hav _ _).2 i]

variable {P : Measure Ω} [IsProbabilityMeasure P] {X : ℕ → Ω → 𝓧} (hX : Sampling P X) {level : ℝ} (hC : TripleCell P X G E y u level g t b)
include hC

theorem qArm_meas (k : Bool × Bool) : Measurable (qArm G E g k) := by
  have hE : ∀ q : Bool, MeasurableSet {z | E z = q} := fun q => measurableSet_eq_fun hC.measE measurable_const
  obtain ⟨p, q⟩ := k
  unfold qArm
  cases p
  · simp only [Bool.false_eq_true, if_false]
    exact Measurable.ite ((hC.measG {c | c = ⊤}).inter (hE _)) measurable_const measurable_const
  · simp only [if_true]
    exact Measurable.ite ((hC.measG {c | c = (g : WithTop ℤ)}).inter (hE _)) measurable_const measurable_const

theorem qArm_pos (k : Bool × Bool) : 0 < pop P X (qArm G E g k) := by
  obtain ⟨p, q⟩ := k
  cases p
  · exact hC.never q
  · exact hC.cohort q

include hX

theorem qArm_sq (k : Bool × Bool) : SqInt P X (qArm G E g k) ∧ SqInt P X fun z => qArm G E g k z * (y t z - y b z) := by
  have hb : ∀ z, |qArm G E g k z| ≤ 1 := fun z => by
    rw [qArm_eq]
    split_ifs <;> norm_num
  constructor
  · have h1 : SqInt P X fun _ => (1 : ℝ) := ⟨measurable_const, memLp_const 1⟩
    have := h1.mul_le (hX.aemeas 0) (qArm_meas hC k) hb
    simpa only [one_mul] using this
  · have := hC.sqY.mul_le (hX.aemeas 0) (qArm_meas hC k) hb
    exact (funext fun z => by ring : (fun z => (y t z - y b z) * qArm G E g k z) = fun z => qArm G E g k z * (y t z - y b z)) ▸ this

theorem qGood_ok : (∀ n, NullMeasurableSet (qGood G E level g X n) P) ∧ ∀ᵐ ω ∂P, ∀ᶠ n in atTop, ω ∈ qGood G E level g X n := by
  have hm := fun k n => avg_aemeas hX (qArm_sq hX hC k).1.1 n
  constructor
  · intro n
    exact (NullMeasurableSet.iInter fun k => nullMeasurableSet_lt aemeasurable_const (hm k n)).inter
      (NullMeasurableSet.iInter fun k => nullMeasurableSet_lt (hm _ n) (((hm _ n).add (hm _ n)).const_mul level))
  · have h0 : ∀ᵐ ω ∂P, ∀ k : Bool × Bool, Tendsto (fun n => avg X (qArm G E g k) n ω) atTop (𝓝 (pop P X (qArm G E g k))) := ae_all_iff.2 fun k => lln2 hX (qArm_sq hX hC k).1
    have hsh : ∀ k : {k : Bool × Bool // k ≠ (true, true)}, pop P X (qArm G E g (true, true)) < level * (pop P X (qArm G E g (true, true)) + pop P X (qArm G E g k)) := by
      rintro ⟨⟨p, q⟩, hk⟩
      cases p
      · exact hC.share.2 q
      · cases q
        · exact hC.share.1
        · exact absurd rfl hk
    filter_upwards [h0] with ω h1
    filter_upwards [eventually_all.2 fun k => (h1 k).eventually_const_lt (qArm_pos hC k), eventually_all.2 fun k : {k : Bool × Bool // k ≠ (true, true)} =>
      (h1 (true, true)).eventually_lt (((h1 (true, true)).add (h1 k)).const_mul level) (hsh k)] with n a1 a2
    exact ⟨Set.mem_iInter.2 a1, Set.mem_iInter.2 a2⟩

/-- Parallel trends identify the effect. -/
theorem triple_att : eligibleATT P X G E y u g t = ∑ k, armSign k * (pop P X (fun z => qArm G E g k z * (y t z - y b z)) / pop P X (qArm G E g k)) := by
  have hk : ∀ k : Bool × Bool, k ≠ (true, true) → wMean P X (qArm G E g k) (fun z => u t z - u b z) = wMean P X (qArm G E g k) fun z => y t z - y b z := fun k hk => by
    unfold wMean
    congr 2
    funext z
    dsimp only
    rw [qArm_eq]
    split_ifs with h
    · have h1 : (G z = (g : WithTop ℤ) ∧ E z = false) ∨ G z = ⊤ := by
        unfold neverRole at h
        split_ifs at h with h2 h3
        · refine .inl ⟨h2, ?_⟩
          by_contra h3
          rw [Option.some.injEq] at h
          exact hk (Prod.ext h.1.symm (h.2.symm.trans (by simpa using h3)))
        · exact .inr h3
        · exact absurd h.1 (by simp)
      rw [hC.untreated z h1, hC.base z (h1.imp And.left id)]
    · simp
  have h2 : eligibleATT P X G E y u g t = wMean P X (qArm G E g (true, true)) (fun z => y t z - y b z) - wMean P X (qArm G E g (true, true)) fun z => u t z - u b z := by
    unfold eligibleATT wMean
    rw [← sub_div]
    congr 1
    unfold pop
    have j := integral_sub ((qArm_sq hX hC (true, true)).2.2.integrable (by norm_num)) hC.intU
    refine Eq.trans ?_ j
    congr 1
    funext ω
    change inCohort G E g true (X 0 ω) * _ = inCohort G E g true (X 0 ω) * _ - _
    unfold inCohort
    split_ifs with h
    · rw [hC.base (X 0 ω) (.inl h.1)]
      ring
    · simp
  have h3 := hC.trends
  have h4 := hk (true, false) (by decide)
  have h5 := hk (false, true) (by decide)
  have h6 := hk (false, false) (by decide)
  have hs4 : ∀ F : Bool × Bool → ℝ, ∑ k, armSign k * F k = (F (true, true) - F (true, false)) - (F (false, true) - F (false, false)) := fun F => by
    simp only [Fintype.sum_prod_type, Fintype.sum_bool, armSign]
    simp
    ring
  rw [hs4 fun k => pop P X (fun z => qArm G E g k z * (y t z - y b z)) / pop P X (qArm G E g k)]
  change wMean P X (qArm G E g (true, true)) _ = wMean P X (qArm G E g (true, false)) _ + (wMean P X (qArm G E g (false, true)) _ - wMean P X (qArm G E g (false, false)) _) at h3
  rw [h2, h3, h4, h5, h6]
  unfold wMean
  ring

theorem triple_regular (hess : HessFam G E g X) (m : Est) {hi : ℝ} (hi0 : 0 < hi) (hi1 : hi < 1) :
    Regular P X (fun n ω => ((tripleCellReport G E y g t b X hess m hi level n ω).map Prod.fst).getD 0)
      (fun n ω => ((tripleCellReport G E y g t b X hess m hi level n ω).map Prod.snd).getD 0) (eligibleATT P X G E y u g t) (qGood G E level g X)
      (tripleCellInfluence P X G E y g t b) := by
  have h1 := Regular.fixed hX (fun k => mean_regular hX (qArm_sq hX hC k).1 (qArm_sq hX hC k).2 (qArm_pos hC k).ne') armSign
  rw [← triple_att hX hC] at h1
  have h2 : (fun z => ∑ k, armSign k * (qArm G E g k z * (y t z - y b z - pop P X (fun z => qArm G E g k z * (y t z - y b z)) / pop P X (qArm G E g k)) / pop P X (qArm G E g k))) =
      tripleCellInfluence P X G E y g t b := by
    funext z
    have hs4 : ∀ F : Bool × Bool → ℝ, ∑ k, armSign k * F k = (F (true, true) - F (true, false)) - (F (false, true) - F (false, false)) := fun F => by
      simp only [Fintype.sum_prod_type, Fintype.sum_bool, armSign]
      simp
      ring
    rw [hs4 fun k => qArm G E g k z * (y t z - y b z - pop P X (fun z => qArm G E g k z * (y t z - y b z)) / pop P X (qArm G E g k)) / pop P X (qArm G E g k)]
    rfl
  rw [h2] at h1
  obtain ⟨⟨mm, l, v, q, q', f, e, e', hp, hψ⟩, h0⟩ := h1
  have hsub : ∀ n, qGood G E level g X n ⊆ ⋂ k, {ω | avg X (qArm G E g k) n ω ≠ 0} := fun n ω hω =>
    Set.mem_iInter.2 fun k => (Set.mem_iInter.1 hω.1 k : 0 < avg X (qArm G E g k) n ω).ne'
  have hg := qGood_ok hX hC
  have he := fun n ω (hω : ω ∈ qGood G E level g X n) => triple_eq (y := y) (t := t) (b := b) hess m hi0 hi1 hω
  refine ⟨⟨mm, l, v, q, q', f, e, e', { hp with
      Gm := hg.1
      Gev := hg.2
      est_eq := fun n ω hω => ?_
      inf_eq := fun n ω hω => ?_ }, hψ⟩, fun n ω hω => ?_⟩
  · rw [he n ω hω]
    exact hp.est_eq n ω (hsub n hω)
  · rw [he n ω hω]
    exact hp.inf_eq n ω (hsub n hω)
  · dsimp only
    rw [he n ω hω]
    exact h0 n ω (hsub n hω)

/-- **C283 (cells).**  Whatever the method, with probability one a cell of a multi-period triple-difference design without covariates, with the never treated as comparison, is
estimated from some sample size on; its estimate tends to the mean effect on the eligible units of the cohort in that period, `√n` times its standard error to the standard
deviation of the influence on the four mean changes, and the coverage of its interval to `1 - alpha`. -/
theorem C283_cell (hess : HessFam G E g X) (m : Est) {hi : ℝ} (hi0 : 0 < hi) (hi1 : hi < 1) :
    Inference P X (fun n ω => tripleCellReport G E y g t b X hess m hi level n ω) (eligibleATT P X G E y u g t) (tripleCellInfluence P X G E y g t b) := by
  refine (triple_regular hX hC hess m hi0 hi1).inference hX _ fun n ω hω => ?_
  rw [triple_eq hess m hi0 hi1 hω]
  rfl

end

/-! ## Non-vacuity: cohorts treated from periods 2 and 3 and never treated, each half eligible, own trends, and a noise on which effects depend -/

abbrev Crews := Fin 3 × Bool × Bool

def cwG (z : Crews) : WithTop ℤ := match z.1 with
  | 0 => ((2 : ℤ) : WithTop ℤ)
  | 1 => ((3 : ℤ) : WithTop ℤ)
  | 2 => ⊤

def cwE (z : Crews) : Bool := z.2.1
def cwU (s : ℤ) (z : Crews) : ℝ := s * (stStart z.1 + 3 * num z.2.1) + num z.2.2 * s ^ 2
noncomputable def cwY (s : ℤ) (z : Crews) : ℝ := if cwG z ≤ (s : WithTop ℤ) ∧ cwE z = true then cwU s z + 2 * s + num z.2.2 else cwU s z

theorem cw_pop (f : Crews → ℝ) : pop (draws Crews) draw f =
    ((f (0, true, true) + f (0, true, false) + (f (0, false, true) + f (0, false, false))) + (f (1, true, true) + f (1, true, false) + (f (1, false, true) + f (1, false, false))) +
      (f (2, true, true) + f (2, true, false) + (f (2, false, true) + f (2, false, false)))) / 12 := by
  rw [draws_pop]
  simp only [Fintype.sum_prod_type, Fintype.sum_bool, Fintype.card_prod, Fintype.card_bool, Fin.sum_univ_three, Fintype.card_fin]
  norm_num

theorem cw_arm (k : Fin 3) (e p q : Bool) (g : ℤ) (hg : g = 2 ∨ g = 3) :
    inCohort cwG cwE g q (k, e, p) = (if stStart k = g ∧ e = q then 1 else 0) ∧ inNever cwG cwE q (k, e, p) = if k = 2 ∧ e = q then 1 else 0 := by
  have e2 : ∀ p q : ℤ, ((p : WithTop ℤ) = (q : WithTop ℤ)) ↔ p = q := fun p q => WithTop.coe_inj
  have e3 : ∀ p : ℤ, (⊤ : WithTop ℤ) ≠ (p : WithTop ℤ) := fun p => WithTop.top_ne_coe
  have c0 : ∀ j p, cwG (0, j, p) = ((2 : ℤ) : WithTop ℤ) := fun _ _ => rfl
  have c1 : ∀ j p, cwG (1, j, p) = ((3 : ℤ) : WithTop ℤ) := fun _ _ => rfl
  have c2 : ∀ j p, cwG (2, j, p) = ⊤ := fun _ _ => rfl
  unfold inCohort inNever
  rcases (by decide +revert : k = 0 ∨ k = 1 ∨ k = 2) with rfl | rfl | rfl <;> rcases hg with rfl | rfl <;> simp [c0, c1, c2, e2, e3, stStart, cwE]

theorem cw_ok (g t b : ℤ) (h : (g, t, b) ∈ [((2 : ℤ), (2 : ℤ), (1 : ℤ)), (2, 3, 1), (3, 3, 2)]) :
    TripleCell (draws Crews) draw cwG cwE cwY cwU (995 / 1000) g t b := by
  have hg : g = 2 ∨ g = 3 := by
    simp only [List.mem_cons, Prod.mk.injEq, List.not_mem_nil, or_false] at h
    omega
  have hbg : b < g := by
    simp only [List.mem_cons, Prod.mk.injEq, List.not_mem_nil, or_false] at h
    omega
  refine ⟨fun A => Set.Finite.measurableSet (Set.toFinite _), measurable_of_finite _, draws_sq _, draws_int fun z => inCohort cwG cwE g true z * (cwU t z - cwU b z),
    fun q => ?_, fun q => ?_, fun z hz => ?_, fun z hz => ?_, ?_, ?_, fun q => ?_⟩
  · rw [cw_pop]
    simp only [(cw_arm _ _ _ _ g hg).1]
    rcases hg with rfl | rfl <;> cases q <;> simp [stStart] <;> norm_num
  · rw [cw_pop]
    simp only [(cw_arm _ _ _ _ g hg).2]
    cases q <;> simp <;> norm_num
  · unfold cwY
    rw [if_neg]
    rintro ⟨h1, -⟩
    rcases hz with hz | hz
    · rw [hz] at h1
      exact absurd (WithTop.coe_le_coe.1 h1) (by omega)
    · rw [hz] at h1
      exact absurd h1 (by simp)
  · unfold cwY
    rw [if_neg]
    rintro ⟨h1, h2⟩
    rcases hz with hz | hz
    · rw [hz.2] at h2
      exact absurd h2 (by simp)
    · rw [hz] at h1
      exact absurd h1 (by simp)
  · unfold wMean
    simp only [cw_pop, (cw_arm _ _ _ _ g hg).1, (cw_arm _ _ _ _ g hg).2]
    rcases hg with rfl | rfl <;> simp [stStart, cwU, num] <;> ring
  · simp only [cw_pop, (cw_arm _ _ _ _ g hg).1]
    rcases hg with rfl | rfl <;> simp [stStart] <;> norm_num
  · simp only [cw_pop, (cw_arm _ _ _ _ g hg).1, (cw_arm _ _ _ _ g hg).2]
    rcases hg with rfl | rfl <;> cases q <;> simp [stStart] <;> norm_num

theorem cw_att (g t : ℤ) (hg : g = 2 ∨ g = 3) (ht : g ≤ t) : eligibleATT (draws Crews) draw cwG cwE cwY cwU g t = 2 * t + 1 / 2 := by
  have e1 : ∀ p q : ℤ, ((p : WithTop ℤ) ≤ (q : WithTop ℤ)) ↔ p ≤ q := fun p q => WithTop.coe_le_coe
  have c0 : ∀ j p, cwG (0, j, p) = ((2 : ℤ) : WithTop ℤ) := fun _ _ => rfl
  have c1 : ∀ j p, cwG (1, j, p) = ((3 : ℤ) : WithTop ℤ) := fun _ _ => rfl
  unfold eligibleATT wMean
  simp only [cw_pop, (cw_arm _ _ _ _ g hg).1]
  rcases hg with rfl | rfl
  · have h : (2 : WithTop ℤ) ≤ (t : WithTop ℤ) := (e1 2 t).2 ht
    simp [stStart, cwY, num, cwE, c0, c1, h]
    ring
  · have h : (3 : WithTop ℤ) ≤ (t : WithTop ℤ) := (e1 3 t).2 ht
    simp [stStart, cwY, num, cwE, c0, c1, h]
    ring

/-- A sample of six units: changes 9 and 5 of the eligible and the ineligible of the cohort, 4 and 3 of the never treated; one unit outside. -/
example (m : Est) (hess : ∀ c, (Sub (quad ![some true, some true, some false, some false, none, some true] ![true, false, true, false, true, false]) c → ℝ) → Unit → Unit → ℝ) :
    (tripleCell ![some true, some true, some false, some false, none, some true] ![true, false, true, false, true, false] hess m (1 - 1 / 10 ^ 6) (995 / 1000)
      ![9, 5, 4, 3, 100, 5] ![0, 0, 0, 0, 7, 0]).map Prod.fst = some 3 := by
  rw [C283_sample hess m (1 - 1 / 10 ^ 6) (995 / 1000) (by norm_num) (by norm_num) _ _ (by decide) (fun p q hpq => by
    have h1 : (Finset.univ.filter fun i : Fin 6 => (![some true, some true, some false, some false, none, some true] : Fin 6 → Option Bool) i = some true ∧
      (![true, false, true, false, true, false] : Fin 6 → Bool) i = true).card = 1 := by decide
    have h2 : 1 ≤ (Finset.univ.filter fun i : Fin 6 => (![some true, some true, some false, some false, none, some true] : Fin 6 → Option Bool) i = some p ∧
      (![true, false, true, false, true, false] : Fin 6 → Bool) i = q).card := by
      revert p q
      decide
    rw [h1]
    have h3 : (1 : ℝ) ≤ ((Finset.univ.filter fun i : Fin 6 => (![some true, some true, some false, some false, none, some true] : Fin 6 → Option Bool) i = some p ∧
      (![true, false, true, false, true, false] : Fin 6 → Bool) i = q).card : ℝ) := by exact_mod_cast h2
    push_cast
    linarith)]
  unfold wavg
  simp only [Finset.sum_filter, Option.map_some, Option.some.injEq, Fin.sum_univ_six]
  simp
  norm_num

/-- Cohort 2 in period 3, the default method, cap and trimming level: limit 13/2, positive variance. -/
example (hess : HessFam cwG cwE 2 (draw (𝓧 := Crews))) : Inference (draws Crews) draw (fun n ω => tripleCellReport cwG cwE cwY 2 3 1 draw hess .dr (1 - 1 / 10 ^ 6) (995 / 1000) n ω)
      (13 / 2) (tripleCellInfluence (draws Crews) draw cwG cwE cwY 2 3 1) ∧
    0 < pop (draws Crews) draw fun z => tripleCellInfluence (draws Crews) draw cwG cwE cwY 2 3 1 z ^ 2 := by
  constructor
  · have h := C283_cell draws_sampling (cw_ok 2 3 1 (by simp)) hess .dr (hi := 1 - 1 / 10 ^ 6) (by norm_num) (by norm_num)
    rw [cw_att 2 3 (.inl rfl) (by norm_num)] at h
    norm_num at h ⊢
    exact h
  · have h : 0 < tripleCellInfluence (draws Crews) draw cwG cwE cwY 2 3 1 (2, true, false) := by
      have c2 : ∀ j p, cwG (2, j, p) = ⊤ := fun _ _ => rfl
      unfold tripleCellInfluence wMean
      simp only [cw_pop, (cw_arm _ _ _ _ 2 (.inl rfl)).1, (cw_arm _ _ _ _ 2 (.inl rfl)).2]
      simp [stStart, cwY, cwU, num, cwE, c2]
      norm_num
    rw [cw_pop]
    have := pow_pos h 2
    positivity

end Verif.Asym
