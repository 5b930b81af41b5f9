import Verif.Asym.Reg
import Verif.Prep.Cohort
import Verif.Report.Props

set_option linter.unusedSectionVars false
set_option linter.unusedSimpArgs false

/-!
# C259: a cell of `att_gt` in large samples
-/

namespace Verif.Asym

open MeasureTheory ProbabilityTheory Filter Topology Verif.Honest Verif.DR

variable {Ω 𝓧 κ : Type*} [MeasurableSpace Ω] [MeasurableSpace 𝓧] [Fintype κ] [DecidableEq κ]

/-! ## Model -/

/-- Units passed to the two-period estimator, `valid_obs` in `compute_att_gt.py:329-338`. -/
abbrev Valid {ι : Type*} (s : ι → Option Bool) := {i // (s i).isSome = true}

/-- Estimate of a panel cell with `est_method="reg"`, `compute_att_gt.py:168-204, 306-361`: both arms must be present, the estimator sees the valid units only. -/
noncomputable def cellEst {ι : Type*} [Fintype ι] (s : ι → Option Bool) (y1 y0 w : ι → ℝ) (x : ι → κ → ℝ) : Option ℝ :=
  if (∃ i, s i = some true) ∧ ∃ i, s i = some false then
    match regDidPanel Ident.gramOLS (fun i : Valid s => y1 i) (fun i => y0 i) (fun i => decide (s i = some true)) (fun i => x i) (fun i => w i) with
    | .ok (some a) => some a
    | _ => none
  else none

/-- Influence function of the cell, scaled and scattered to all units, `compute_att_gt.py:360-361`. -/
noncomputable def cellInf {ι : Type*} [Fintype ι] (s : ι → Option Bool) (y1 y0 w : ι → ℝ) (x : ι → κ → ℝ) (i : ι) : ℝ :=
  if h : (s i).isSome = true then
    (Fintype.card ι : ℝ) / (Fintype.card (Valid s) : ℝ) *
      regInf (fun i : Valid s => y1 i) (fun i => y0 i) (fun i => decide (s i = some true)) (fun i => x i) (fun i => w i) ⟨i, h⟩
  else 0

/-- Standard error from an influence function, `att_gt.py:391-393`, `compute_aggte.py:894`. -/
noncomputable def plainSe {n : ℕ} (f : Fin n → ℝ) : ℝ := Real.sqrt (DR.mean (fun i => f i ^ 2) / n)

/-- `np.sqrt(np.finfo(float).eps) * 10`. -/
noncomputable def seTol : ℝ := Real.sqrt (1 / 2 ^ 52) * 10

/-- A standard error not above the tolerance is reported as NaN, `att_gt.py:394`, `compute_aggte.py:896-897`. -/
noncomputable def reportSe (s : ℝ) : Option ℝ := if s ≤ seTol then none else some s

/-! ## Scaling the moments -/

section
variable (F : Option κ × Option (Option κ) → ℝ) (c : ℝ) (hc : c ≠ 0)
include hc

theorem minv_scale (k l : κ) : minv (fun k l => c * F (some k, some (some l))) k l = c⁻¹ * minv (fun k l => F (some k, some (some l))) k l :=
  minv_smul c hc (fun k l => F (some k, some (some l))) k l

theorem bcoef_scale : bcoef (fun p => c * F p) = bcoef F := by
  funext k
  unfold bcoef
  refine Finset.sum_congr rfl fun l _ => ?_
  rw [minv_scale F c hc]
  field_simp

theorem tcoef_scale : tcoef (fun p => c * F p) = tcoef F := by
  unfold tcoef
  rw [bcoef_scale F c hc]
  simp only [mul_assoc]
  rw [← Finset.mul_sum, ← mul_sub, mul_div_mul_left _ _ hc]

theorem acoef_scale (j : Option κ) : acoef (fun p => c * F p) j = c⁻¹ * acoef F j := by
  cases j with
  | none =>
    simp only [acoef]
    rw [one_div, one_div, mul_inv]
  | some l =>
    simp only [acoef, minv_scale F c hc]
    have : ∀ k, c * F (none, some (some k)) * (c⁻¹ * minv (fun k l => F (some k, some (some l))) k l) =
        F (none, some (some k)) * minv (fun k l => F (some k, some (some l))) k l := fun k => by field_simp
    simp only [this]
    rw [div_mul_eq_div_div, div_eq_inv_mul (_ / c), inv_mul_eq_div, div_right_comm, inv_mul_eq_div]

end

/-! ## The cell in terms of the moments of the full sample -/

/-- 1 for units in the cell. -/
def inCell (s : 𝓧 → Option Bool) (z : 𝓧) : ℝ := if (s z).isSome = true then 1 else 0

section
variable {ι : Type*} [Fintype ι] (s : ι → Option Bool)

theorem valid_mean [Nonempty ι] (g : ι → ℝ) :
    DR.mean (fun i : Valid s => g i) = (Fintype.card ι : ℝ) / (Fintype.card (Valid s) : ℝ) * DR.mean fun i => inCell s i * g i := by
  unfold DR.mean
  rw [div_mul_div_comm, mul_comm (Fintype.card (Valid s) : ℝ), mul_div_mul_left _ _ (Nat.cast_ne_zero.2 Fintype.card_ne_zero)]
  congr 1
  have h1 : ∑ i, inCell s i * g i = ∑ i with (s i).isSome = true, g i := by
    rw [Finset.sum_filter]
    refine Finset.sum_congr rfl fun i _ => ?_
    unfold inCell
    split_ifs <;> simp
  rw [h1]
  exact (Finset.sum_subtype _ (fun i => by simp) g).symm

variable (y1 y0 w : ι → ℝ) (x : ι → κ → ℝ)

theorem valid_smom [Nonempty ι] (p : Option κ × Option (Option κ)) :
    smom (fun i : Valid s => y1 i - y0 i) (fun i => w i) (fun i => decide (s i = some true)) (fun i => x i) p =
      (Fintype.card ι : ℝ) / (Fintype.card (Valid s) : ℝ) *
        smom (fun i => y1 i - y0 i) (fun i => w i * inCell s i) (fun i => decide (s i = some true)) x p := by
  unfold smom
  have h := valid_mean s (ffun (fun i => y1 i - y0 i) w (fun i => decide (s i = some true)) x p)
  have e1 : (ffun (fun i : Valid s => y1 i - y0 i) (fun i => w i) (fun i => decide (s i = some true)) (fun i => x i) p) =
      fun i : Valid s => ffun (fun i => y1 i - y0 i) w (fun i => decide (s i = some true)) x p i := by
    funext i
    rcases p with ⟨_ | _, _ | _ | _⟩ <;> rfl
  rw [e1, h]
  congr 2
  funext i
  rcases p with ⟨_ | _, _ | _ | _⟩ <;> simp only [ffun, gfun, hfun] <;> ring

theorem cell_array [Nonempty ι] (hw : ∀ i, 0 ≤ w i)
    (h0 : smom (fun i => y1 i - y0 i) (fun i => w i * inCell s i) (fun i => decide (s i = some true)) x (none, some none) ≠ 0)
    (hnc : (max 1 (Fintype.card κ)) ≤ (Finset.univ.filter fun i => s i = some false).card) :
    cellEst s y1 y0 w x = some (tcoef (smom (fun i => y1 i - y0 i) (fun i => w i * inCell s i) (fun i => decide (s i = some true)) x)) ∧
    ∀ i, cellInf s y1 y0 w x i = ∑ j, acoef (smom (fun i => y1 i - y0 i) (fun i => w i * inCell s i) (fun i => decide (s i = some true)) x) j *
      ufun (fun i => y1 i - y0 i) (fun i => w i * inCell s i) (fun i => decide (s i = some true)) x
        (bcoef (smom (fun i => y1 i - y0 i) (fun i => w i * inCell s i) (fun i => decide (s i = some true)) x))
        (tcoef (smom (fun i => y1 i - y0 i) (fun i => w i * inCell s i) (fun i => decide (s i = some true)) x)) j i := by
  have hcard : (Finset.univ.filter fun i : Valid s => decide (s i = some true) = false).card = (Finset.univ.filter fun i => s i = some false).card := by
    refine Finset.card_bij (fun i _ => i.1) (fun i hi => ?_) (fun i _ j _ h => Subtype.ext h) fun i hi => ?_
    · simp only [Finset.mem_filter, Finset.mem_univ, true_and, decide_eq_false_iff_not] at hi ⊢
      have := i.2
      cases h : s i.1 with
      | none => simp [h] at this
      | some b => cases b <;> simp_all
    · simp only [Finset.mem_filter, Finset.mem_univ, true_and] at hi
      exact ⟨⟨i, by simp [hi]⟩, by simp [hi], rfl⟩
  have hne : Nonempty (Valid s) := by
    obtain ⟨i, hi⟩ := Finset.card_pos.1 (by omega : 0 < (Finset.univ.filter fun i => s i = some false).card)
    exact ⟨⟨i, by simp [(Finset.mem_filter.1 hi).2]⟩⟩
  have hc : (Fintype.card ι : ℝ) / (Fintype.card (Valid s) : ℝ) ≠ 0 :=
    div_ne_zero (Nat.cast_ne_zero.2 Fintype.card_ne_zero) (Nat.cast_ne_zero.2 Fintype.card_ne_zero)
  have hF := funext (valid_smom s y1 y0 w x)
  obtain ⟨F, hFF⟩ : ∃ F, F = smom (fun i => y1 i - y0 i) (fun i => w i * inCell s i) (fun i => decide (s i = some true)) x := ⟨_, rfl⟩
  obtain ⟨c, hcc⟩ : ∃ c, c = (Fintype.card ι : ℝ) / (Fintype.card (Valid s) : ℝ) := ⟨_, rfl⟩
  rw [← hFF, ← hcc] at hF
  rw [← hFF] at h0 ⊢
  rw [← hcc] at hc
  obtain ⟨h1, h2⟩ := reg_array (fun i : Valid s => y1 i) (fun i => y0 i) (fun i => w i) (fun i => decide (s i = some true)) (fun i => x i)
    (fun i => hw _) (by rw [hF]; exact mul_ne_zero hc h0) (by rw [hcard]; exact hnc)
  refine ⟨?_, fun i => ?_⟩
  · have ht : ∃ i, s i = some true := by
      by_contra hcon
      push Not at hcon
      refine h0 ?_
      rw [hFF]
      unfold smom DR.mean
      rw [Finset.sum_eq_zero fun i _ => ?_, zero_div]
      simp [ffun, gfun, dn, hcon i]
    have hf : ∃ i, s i = some false := by
      obtain ⟨i, hi⟩ := Finset.card_pos.1 (by omega : 0 < (Finset.univ.filter fun i => s i = some false).card)
      exact ⟨i, (Finset.mem_filter.1 hi).2⟩
    unfold cellEst
    rw [if_pos ⟨ht, hf⟩, h1, hF]
    simp only [tcoef_scale F c hc]
  · unfold cellInf
    split_ifs with h
    · rw [h2, hF, ← hcc, bcoef_scale F c hc, tcoef_scale F c hc, Finset.mul_sum]
      refine Finset.sum_congr rfl fun j _ => ?_
      rw [acoef_scale F c hc, ← mul_assoc, mul_inv_cancel_left₀ hc]
      congr 1
      have := ufun_comp (fun i => y1 i - y0 i) w (fun i => decide (s i = some true)) x (fun i : Valid s => i.1) (bcoef F) (tcoef F) j ⟨i, h⟩
      rw [this]
      cases j with
      | none => rw [ufun_none, ufun_none]; simp [inCell, h]
      | some l => rw [ufun_some, ufun_some]; simp [inCell, h]
    · refine (Finset.sum_eq_zero fun j _ => ?_).symm
      cases j with
      | none => rw [ufun_none]; simp [inCell, h]
      | some l => rw [ufun_some]; simp [inCell, h]

end

end Verif.Asym
