import Verif.Inter.VarModel
import Verif.Inter.HorizonLemmas

/-! # Standard errors of `did_multiplegt`: lemmas -/

set_option linter.unusedSectionVars false
set_option linter.unusedSimpArgs false

namespace Verif.Inter

open Finset

variable {ι β γ K : Type*} [Fintype ι] [DecidableEq ι] [DecidableEq β] [DecidableEq γ] [Field K] [LinearOrder K]

section
variable (P : Frame ι β K) (o : Opt K) (h : ℕ) (D D' : P.Row → Option K) (v : VOpt ι γ K)

/-! ## Without covariates the definitions are those of `Horizon` -/

theorem neverD_eq (pl : Bool) : neverD P o (P.diff pl h) = never P o pl h := rfl

theorem nControlD_eq (pl : Bool) : nControlD P o (P.diff pl h) = nControl P o pl h := rfl

theorem isEventD_eq (pl : Bool) : isEventD P o h (P.diff pl h) = isEvent P o pl h := rfl

theorem distD_eq (pl : Bool) : distD P o h (P.diff pl h) = dist P o pl h := rfl

theorem nTreatedD_eq (pl : Bool) : nTreatedD P o h (P.diff pl h) = nTreated P o pl h := rfl

theorem estimateD_eq (pl : Bool) :
    estimateD P o h (P.diff pl h) = (∑ i, unitInf P o pl h i) / Fintype.card ι := by
  rw [unitInf_sum]
  unfold estimateD
  congr 1
  refine sum_congr rfl fun r _ => ?_
  unfold contrastD infTemp scaleGN
  rw [distD_eq, nTreatedD_eq, nControlD_eq, neverD_eq]
  rw [show nSwWD P o h (P.diff pl h) = nSwW P o pl h from rfl]
  cases dist P o pl h r <;> simp

/-! ## Only the nullness of the change matters for the masks, counts and weights -/

theorem neverD_congr (H : ∀ r, (D' r).isSome = (D r).isSome) : neverD P o D' = neverD P o D := by
  funext r
  unfold neverD
  have := H r
  cases h1 : D' r <;> cases h2 : D r <;> simp_all

theorem nControlD_congr (H : ∀ r, (D' r).isSome = (D r).isSome) : nControlD P o D' = nControlD P o D := by
  funext r
  unfold nControlD
  rw [neverD_congr P o D D' H]

theorem isEventD_congr (H : ∀ r, (D' r).isSome = (D r).isSome) : isEventD P o h D' = isEventD P o h D := by
  funext r
  unfold isEventD
  rw [nControlD_congr P o D D' H]

theorem distD_congr (H : ∀ r, (D' r).isSome = (D r).isSome) : distD P o h D' = distD P o h D := by
  funext r
  unfold distD
  rw [isEventD_congr P o h D D' H]
  have := H r
  cases h1 : D' r <;> cases h2 : D r <;> simp_all

theorem distWD_congr (H : ∀ r, (D' r).isSome = (D r).isSome) : distWD P o h D' = distWD P o h D := by
  funext r
  unfold distWD
  rw [distD_congr P o h D D' H]

theorem nTreatedD_congr (H : ∀ r, (D' r).isSome = (D r).isSome) : nTreatedD P o h D' = nTreatedD P o h D := by
  funext r
  unfold nTreatedD
  rw [distWD_congr P o h D D' H]

theorem contrastD_congr (H : ∀ r, (D' r).isSome = (D r).isSome) : contrastD P o h D' = contrastD P o h D := by
  funext r
  unfold contrastD
  rw [distD_congr P o h D D' H, nTreatedD_congr P o h D D' H, nControlD_congr P o D D' H, neverD_congr P o D D' H]

theorem scaleGN_congr (H : ∀ r, (D' r).isSome = (D r).isSome) : scaleGN P o h D' = scaleGN P o h D := by
  unfold scaleGN nSwWD
  rw [distWD_congr P o h D D' H]

theorem isSwD_congr (H : ∀ r, (D' r).isSome = (D r).isSome) : isSwD P o h D' = isSwD P o h D := by
  funext r
  unfold isSwD
  rw [distD_congr P o h D D' H]

theorem isCtD_congr (H : ∀ r, (D' r).isSome = (D r).isSome) : isCtD P o D' = isCtD P o D := by
  funext r
  unfold isCtD
  rw [neverD_congr P o D D' H]

theorem cohort_congr (H : ∀ r, (D' r).isSome = (D r).isSome) : cohort P o h D' v = cohort P o h D v := by
  funext r
  unfold cohort
  rw [isSwD_congr P o h D D' H]

theorem ctGroup_congr (H : ∀ r, (D' r).isSome = (D r).isSome) : ctGroup P o D' = ctGroup P o D := by
  funext r
  unfold ctGroup
  rw [isCtD_congr P o D D' H]

theorem unGroup_congr (H : ∀ r, (D' r).isSome = (D r).isSome) : unGroup P o h D' = unGroup P o h D := by
  funext r
  unfold unGroup
  rw [isSwD_congr P o h D D' H, isCtD_congr P o D D' H]

theorem dofS_congr (H : ∀ r, (D' r).isSome = (D r).isSome) (pl : Bool) : dofS P o h D' v pl = dofS P o h D v pl := by
  funext r
  unfold dofS
  rw [isSwD_congr P o h D D' H, cohort_congr P o h D D' v H, distD_congr P o h D D' H]

theorem dofC_congr (H : ∀ r, (D' r).isSome = (D r).isSome) : dofC P o D' v = dofC P o D v := by
  funext r
  unfold dofC
  rw [isCtD_congr P o D D' H, ctGroup_congr P o D D' H]

theorem dofU_congr (H : ∀ r, (D' r).isSome = (D r).isSome) : dofU P o h D' v = dofU P o h D v := by
  funext r
  unfold dofU
  rw [isSwD_congr P o h D D' H, isCtD_congr P o D D' H, unGroup_congr P o h D D' H]

theorem dofScale_congr (H : ∀ r, (D' r).isSome = (D r).isSome) (pl : Bool) :
    dofScale P o h D' v pl = dofScale P o h D v pl := by
  funext r
  unfold dofScale
  rw [dofS_congr P o h D D' v H, dofC_congr P o D D' v H, dofU_congr P o h D D' v H]

/-! ## Switchers and controls -/

theorem isSwD_iff (r : P.Row) : isSwD P o h D r = true ↔ D r ≠ none ∧ isEventD P o h D r = true := by
  unfold isSwD distD
  rw [decide_eq_true_iff]
  cases D r with
  | none => simp
  | some x => cases isEventD P o h D r <;> simp

theorem isCtD_iff (r : P.Row) : isCtD P o D r = true ↔ D r ≠ none ∧ isControl P o r = true := by
  unfold isCtD neverD
  rw [decide_eq_true_iff]
  cases D r with
  | none => simp
  | some x => cases isControl P o r <;> simp

theorem neverD_getD (r : P.Row) : (neverD P o D r).getD 0 = if isCtD P o D r then 1 else 0 := by
  by_cases e : isCtD P o D r = true
  · rw [if_pos e]
    unfold isCtD at e
    rw [decide_eq_true_iff] at e
    rw [e]; rfl
  · rw [if_neg e]
    have := mt (isCtD_iff P o D r).2 e
    unfold neverD
    cases hd : D r with
    | none => rfl
    | some x =>
      have hc : ¬ isControl P o r = true := fun hc => this ⟨by simp [hd], hc⟩
      simp [hc]

theorem distWD_eq (r : P.Row) : distWD P o h D r = if isSwD P o h D r then P.w r.1 r.2 else 0 := by
  unfold distWD
  by_cases e : isSwD P o h D r = true
  · rw [if_pos e]
    have he := ((isSwD_iff P o h D r).1 e).2
    have hm : swMask P o r.1 = true := by
      unfold isEventD at he
      simp only [Bool.and_eq_true] at he
      unfold swMask
      rw [he.2, he.1.2]; rfl
    rw [if_pos hm]
    unfold isSwD at e
    rw [decide_eq_true_iff] at e
    rw [e]; simp
  · rw [if_neg e]
    have hz : ((distD P o h D r).map fun x => x * P.w r.1 r.2).getD 0 = 0 := by
      unfold isSwD at e
      unfold distD at e ⊢
      cases hd : D r with
      | none => simp
      | some x =>
        rw [hd] at e
        cases he : isEventD P o h D r with
        | true => simp [he] at e
        | false => simp
    rw [hz]; simp

theorem nControlD_sum (r : P.Row) : nControlD P o D r = ∑ s ∈ ctGroup P o D r, P.w s.1 s.2 := by
  unfold nControlD ctGroup
  rw [sum_filter]
  refine sum_congr rfl fun s _ => ?_
  have := neverD_getD P o D s
  cases hn : neverD P o D s with
  | none =>
    rw [hn] at this
    by_cases e : isCtD P o D s = true
    · simp [e] at this
    · simp [e]
  | some c =>
    rw [hn] at this
    simp only [Option.getD_some] at this
    simp only [Option.map_some, Option.getD_some, this]
    by_cases e : isCtD P o D s = true <;> simp [e]

theorem nTreatedD_sum (r : P.Row) :
    nTreatedD P o h D r = ∑ s ∈ (peers P r).filter (fun s => isSwD P o h D s = true), P.w s.1 s.2 := by
  unfold nTreatedD
  rw [sum_filter]
  exact sum_congr rfl fun s _ => distWD_eq P o h D s

theorem mem_peers_self (r : P.Row) : r ∈ peers P r := by
  unfold peers; simp

theorem mem_cohort_self {r : P.Row} (e : isSwD P o h D r = true) : r ∈ cohort P o h D v r := by
  unfold cohort cohortKey
  simp [e]

theorem mem_ctGroup_self {r : P.Row} (e : isCtD P o D r = true) : r ∈ ctGroup P o D r := by
  unfold ctGroup
  simp [e, mem_peers_self]

theorem at_of_sw {r : P.Row} (e : isSwD P o h D r = true) : atTarget P h r = true := by
  have := ((isSwD_iff P o h D r).1 e).2
  unfold isEventD at this
  simp only [Bool.and_eq_true] at this
  exact this.1.1.1.1

theorem before_of_ct {r : P.Row} (e : isCtD P o D r = true) : beforeSwitch P r = true := by
  have := ((isCtD_iff P o D r).1 e).2
  unfold isControl at this
  simp only [Bool.and_eq_true] at this
  exact this.1

/-- A row is not both at its horizon and before its switch. -/
theorem not_before_of_at (hh : 1 ≤ h) {r : P.Row} (e : atTarget P h r = true) : beforeSwitch P r = false := by
  unfold atTarget at e
  unfold beforeSwitch
  rw [decide_eq_true_iff, withTop_event] at e
  rw [decide_eq_false_iff_not, e, WithTop.coe_lt_coe]
  omega

theorem sw_not_ct (hh : 1 ≤ h) {r : P.Row} (e : isSwD P o h D r = true) : isCtD P o D r = false := by
  cases hc : isCtD P o D r with
  | false => rfl
  | true =>
    have h1 := not_before_of_at P h hh (at_of_sw P o h D e)
    have h2 := before_of_ct P o D hc
    rw [h1] at h2; cases h2

/-- Rows of one cohort are in one period. -/
theorem cohort_time {r s : P.Row} (e : isSwD P o h D r = true) (hs : s ∈ cohort P o h D v r) :
    P.time s = P.time r ∧ P.cell s.1 = P.cell r.1 := by
  unfold cohort cohortKey at hs
  simp only [mem_filter, mem_univ, true_and] at hs
  obtain ⟨⟨h1, h2, -⟩, h3⟩ := hs
  refine ⟨?_, h1⟩
  have a1 := at_of_sw P o h D e
  have a2 := at_of_sw P o h D h3
  unfold atTarget at a1 a2
  rw [decide_eq_true_iff, withTop_event] at a1 a2
  rw [h2, a1] at a2
  have := WithTop.coe_injective a2
  omega

/-- A switcher row has a control row in its period and cell. -/
theorem sw_has_control {r : P.Row} (e : isSwD P o h D r = true) : 0 < nControlD P o D r ∧ (ctGroup P o D r).Nonempty := by
  have := ((isSwD_iff P o h D r).1 e).2
  unfold isEventD at this
  simp only [Bool.and_eq_true, decide_eq_true_iff] at this
  refine ⟨this.1.1.2, ?_⟩
  rw [nControlD_sum] at this
  by_contra hc
  rw [not_nonempty_iff_eq_empty] at hc
  rw [hc, sum_empty] at this
  exact lt_irrefl _ this.1.1.2

theorem contrast_zero {r : P.Row} {a : K} (ha : contrastD P o h D r = some a) (hs : isSwD P o h D r = false)
    (hc : isCtD P o D r = false ∨ nTreatedD P o h D r = 0) : a = 0 := by
  unfold contrastD at ha
  cases hd : distD P o h D r with
  | none => rw [hd] at ha; cases ha
  | some x =>
    rw [hd] at ha
    simp only [Option.map_some, Option.some.injEq] at ha
    have hx : x = 0 := by
      unfold isSwD at hs
      unfold distD at hd hs
      cases h1 : D r with
      | none => rw [h1] at hd; cases hd
      | some y =>
        rw [h1] at hd hs
        simp only [Option.map_some, Option.some.injEq] at hd
        cases h2 : isEventD P o h D r with
        | true => rw [h2] at hs; simp at hs
        | false => rw [h2] at hd; simp at hd; exact hd.symm
    rw [← ha, hx]
    rcases hc with hc | hc
    · rw [neverD_getD, hc]; simp
    · rw [hc]; simp

end

section shift
variable [IsStrictOrderedRing K] (P : Frame ι β K) (o : Opt K) (h : ℕ) (D D' : P.Row → Option K) (v : VOpt ι γ K)

theorem meanOver_shift (A : Finset P.Row) (e : K) (hA : ∀ s ∈ A, D s ≠ none)
    (hD : ∀ s ∈ A, D' s = (D s).map fun x => x + e) (hw : ∑ s ∈ A, P.w s.1 s.2 ≠ 0) :
    meanOver P D' A = meanOver P D A + e := by
  unfold meanOver
  have : ∑ s ∈ A, wdiffD P D' s = ∑ s ∈ A, wdiffD P D s + e * ∑ s ∈ A, P.w s.1 s.2 := by
    rw [mul_sum, ← sum_add_distrib]
    refine sum_congr rfl fun s hs => ?_
    unfold wdiffD
    rw [hD s hs]
    cases hd : D s with
    | none => exact absurd hd (hA s hs)
    | some x => simp; ring
  rw [this]
  field_simp

theorem meanOver_scale (A : Finset P.Row) (e : K) (hD : ∀ s ∈ A, D' s = (D s).map fun x => e * x) :
    meanOver P D' A = e * meanOver P D A := by
  unfold meanOver
  have : ∑ s ∈ A, wdiffD P D' s = e * ∑ s ∈ A, wdiffD P D s := by
    rw [mul_sum]
    refine sum_congr rfl fun s hs => ?_
    unfold wdiffD
    rw [hD s hs]
    cases hd : D s with
    | none => simp
    | some x => simp; ring
  rw [this, mul_div_assoc]

/-- The degrees of freedom a row with a non-zero weight needs for its residual to be centred. -/
def Centred (pl : Bool) : Prop :=
  (∀ r, isSwD P o h D r = true → ∃ s u, dofS P o h D v pl r = some s ∧ dofU P o h D v r = some u ∧ 1 ≤ s ∧ 2 ≤ u) ∧
    ∀ r, isCtD P o D r = true → nTreatedD P o h D r ≠ 0 →
      ∃ c u, dofC P o D v r = some c ∧ dofU P o h D v r = some u ∧ 1 ≤ c ∧ 2 ≤ u

/-- The expectation of the change, `E_hat`, moves with the change. -/
theorem eHat_shift (hh : 1 ≤ h) (e : ℤ → β → K) (hD : ∀ r, D' r = (D r).map fun x => x + e (P.time r) (P.cell r.1))
    (hw : ∀ r, D r ≠ none → 0 < P.w r.1 r.2) (pl : Bool) (hc : Centred P o h D v pl) (r : P.Row)
    (hr : isSwD P o h D r = true ∨ (isCtD P o D r = true ∧ nTreatedD P o h D r ≠ 0)) :
    eHat P o h D' v pl r = eHat P o h D v pl r + e (P.time r) (P.cell r.1) := by
  have H : ∀ r, (D' r).isSome = (D r).isSome := fun r => by rw [hD]; simp
  have hwpos : ∀ A : Finset P.Row, A.Nonempty → (∀ s ∈ A, D s ≠ none) → 0 < ∑ s ∈ A, P.w s.1 s.2 :=
    fun A hA hs => sum_pos (fun s hs' => hw s (hs s hs')) hA
  have hpeer : ∀ s ∈ peers P r, D' s = (D s).map fun x => x + e (P.time r) (P.cell r.1) := by
    intro s hs
    unfold peers at hs
    simp only [mem_filter, mem_univ, true_and] at hs
    rw [hD, hs.1, hs.2]
  have hun : (isSwD P o h D r || isCtD P o D r) = true →
      meanU P o h D' r = meanU P o h D r + e (P.time r) (P.cell r.1) := by
    intro hm
    unfold meanU
    rw [isSwD_congr P o h D D' H, isCtD_congr P o D D' H, unGroup_congr P o h D D' H]
    have hsome : ∀ s ∈ unGroup P o h D r, D s ≠ none := by
      intro s hs
      unfold unGroup at hs
      rw [mem_filter, Bool.or_eq_true] at hs
      rcases hs.2 with h1 | h1
      · exact ((isSwD_iff P o h D s).1 h1).1
      · exact ((isCtD_iff P o D s).1 h1).1
    have hne : (unGroup P o h D r).Nonempty := ⟨r, by
      unfold unGroup
      rw [mem_filter]
      exact ⟨mem_peers_self P r, hm⟩⟩
    have hpos := hwpos _ hne hsome
    rw [if_pos ⟨hm, hpos⟩, if_pos ⟨hm, hpos⟩]
    exact meanOver_shift P D D' _ _ hsome (fun s hs => hpeer s (mem_filter.1 hs).1) hpos.ne'
  unfold eHat
  rw [dofS_congr P o h D D' v H, dofC_congr P o D D' v H, dofU_congr P o h D D' v H]
  rcases hr with hs | ⟨hct, hn⟩
  · obtain ⟨s, u, h1, h2, h3, h4⟩ := hc.1 r hs
    have hat := at_of_sw P o h D hs
    rw [h1, h2, hat, not_before_of_at P h hh hat]
    simp only [Option.getD_some, Bool.true_and, Bool.false_and, Bool.false_eq_true, if_false, Bool.or_false,
      Bool.and_eq_true, decide_eq_true_iff]
    by_cases hs2 : 2 ≤ s
    · rw [if_pos hs2, if_pos hs2]
      unfold meanS
      rw [isSwD_congr P o h D D' H, cohort_congr P o h D D' v H, if_pos hs, if_pos hs]
      have hsome : ∀ s ∈ cohort P o h D v r, D s ≠ none := fun s hs' => by
        unfold cohort at hs'
        rw [mem_filter] at hs'
        exact ((isSwD_iff P o h D s).1 hs'.2).1
      refine meanOver_shift P D D' _ _ hsome (fun s hs' => ?_)
        (hwpos _ ⟨r, mem_cohort_self P o h D v hs⟩ hsome).ne'
      have := cohort_time P o h D v hs hs'
      rw [hD, this.1, this.2]
    · have hs1 : s = 1 := by omega
      rw [if_neg hs2, if_neg hs2, if_pos ⟨h4, hs1⟩, if_pos ⟨h4, hs1⟩]
      exact hun (by rw [hs]; rfl)
  · obtain ⟨c, u, h1, h2, h3, h4⟩ := hc.2 r hct hn
    have hbe := before_of_ct P o D hct
    have hat : atTarget P h r = false := by
      cases hat : atTarget P h r with
      | false => rfl
      | true => rw [not_before_of_at P h hh hat] at hbe; cases hbe
    rw [h1, h2, hat, hbe]
    simp only [Option.getD_some, Bool.true_and, Bool.false_and, Bool.false_eq_true, if_false, Bool.false_or,
      Bool.and_eq_true, decide_eq_true_iff]
    by_cases hs2 : 2 ≤ c
    · rw [if_pos hs2, if_pos hs2]
      unfold meanC
      rw [isCtD_congr P o D D' H, ctGroup_congr P o D D' H]
      have hsome : ∀ s ∈ ctGroup P o D r, D s ≠ none := fun s hs' => by
        unfold ctGroup at hs'
        rw [mem_filter] at hs'
        exact ((isCtD_iff P o D s).1 hs'.2).1
      have hpos := hwpos _ ⟨r, mem_ctGroup_self P o D hct⟩ hsome
      rw [if_pos ⟨hct, hpos⟩, if_pos ⟨hct, hpos⟩]
      exact meanOver_shift P D D' _ _ hsome (fun s hs' => hpeer s (mem_filter.1 hs').1) hpos.ne'
    · have hs1 : c = 1 := by omega
      rw [if_neg hs2, if_neg hs2, if_pos ⟨h4, hs1⟩, if_pos ⟨h4, hs1⟩]
      exact hun (by rw [hct]; simp)

theorem infVar_shift (hh : 1 ≤ h) (e : ℤ → β → K) (hD : ∀ r, D' r = (D r).map fun x => x + e (P.time r) (P.cell r.1))
    (hw : ∀ r, D r ≠ none → 0 < P.w r.1 r.2) (pl : Bool) (hc : Centred P o h D v pl) (r : P.Row) :
    infVar P o h D' v pl r = infVar P o h D v pl r := by
  have H : ∀ r, (D' r).isSome = (D r).isSome := fun r => by rw [hD]; simp
  unfold infVar
  rw [contrastD_congr P o h D D' H, scaleGN_congr P o h D D' H, dofScale_congr P o h D D' v H]
  cases hx : contrastD P o h D r with
  | none => rfl
  | some a =>
    simp only [Option.map_some, Option.getD_some]
    by_cases hr : isSwD P o h D r = true ∨ (isCtD P o D r = true ∧ nTreatedD P o h D r ≠ 0)
    · rw [eHat_shift P o h D D' v hh e hD hw pl hc r hr, hD]
      have : D r ≠ none := by
        rcases hr with h1 | h1
        · exact ((isSwD_iff P o h D r).1 h1).1
        · exact ((isCtD_iff P o D r).1 h1.1).1
      cases hd : D r with
      | none => exact absurd hd this
      | some x => simp only [Option.map_some, Option.getD_some]; ring
    · push Not at hr
      have ha : a = 0 := contrast_zero P o h D hx (by simpa using hr.1) (by
        by_cases hct : isCtD P o D r = true
        · exact Or.inr (hr.2 hct)
        · exact Or.inl (by simpa using hct))
      rw [ha]; ring

/-- Without clusters every row with a non-zero weight has the degrees of freedom it needs. -/
theorem centred_plain (hh : 1 ≤ h) (hcl : v.cluster = none) (hw : ∀ r, D r ≠ none → 0 < P.w r.1 r.2) (pl : Bool) :
    Centred P o h D v pl := by
  have two : ∀ r s t : P.Row, s ∈ unGroup P o h D r → t ∈ unGroup P o h D r → s ≠ t → 2 ≤ (unGroup P o h D r).card := by
    intro r s t h1 h2 hne
    exact one_lt_card.2 ⟨s, h1, t, h2, hne⟩
  have hU : ∀ r s : P.Row, isSwD P o h D s = true → s ∈ peers P r → 2 ≤ (unGroup P o h D r).card := by
    intro r s hs hp
    obtain ⟨t, ht⟩ := (sw_has_control P o h D hs).2
    unfold ctGroup at ht
    rw [mem_filter, peers_congr hp] at ht
    refine two r s t ?_ ?_ ?_
    · unfold unGroup; rw [mem_filter, hs]; exact ⟨hp, rfl⟩
    · unfold unGroup; rw [mem_filter, ht.2]; exact ⟨ht.1, by simp⟩
    · rintro rfl
      rw [sw_not_ct P o h D hh hs] at ht
      cases ht.2
  constructor
  · intro r hs
    refine ⟨_, _, by unfold dofS; rw [if_pos hs, hcl], by unfold dofU; rw [hs, hcl]; rfl, ?_, ?_⟩
    · exact card_pos.2 ⟨r, mem_cohort_self P o h D v hs⟩
    · exact hU r r hs (mem_peers_self P r)
  · intro r hct hn
    refine ⟨_, _, by unfold dofC; rw [if_pos hct, hcl], by unfold dofU; rw [hct, hcl, Bool.or_true]; rfl, ?_, ?_⟩
    · exact card_pos.2 ⟨r, mem_ctGroup_self P o D hct⟩
    · rw [nTreatedD_sum] at hn
      obtain ⟨s, hs, -⟩ := exists_ne_zero_of_sum_ne_zero hn
      rw [mem_filter] at hs
      exact hU r s hs.2 hs.1

/-- With clusters: all clusters known, and every period and cell with a switcher row holds switcher and control rows of at
least two clusters. -/
theorem centred_clustered (c : ι → Option γ) (hcl : v.cluster = some c) (hk : ∀ i, (c i).isSome)
    (H2 : ∀ r, isSwD P o h D r = true → ∃ s ∈ unGroup P o h D r, ∃ t ∈ unGroup P o h D r, c s.1 ≠ c t.1) (pl : Bool) :
    Centred P o h D v pl := by
  have hU : ∀ r s : P.Row, isSwD P o h D s = true → s ∈ peers P r →
      2 ≤ nUnique P c (peers P r) fun s => isSwD P o h D s || isCtD P o D s := by
    intro r s hs hp
    obtain ⟨a, ha, b, hb, hab⟩ := H2 s hs
    unfold unGroup at ha hb
    rw [mem_filter, peers_congr hp] at ha hb
    unfold nUnique
    refine one_lt_card.2 ⟨c a.1, mem_image.2 ⟨a, ha.1, ?_⟩, c b.1, mem_image.2 ⟨b, hb.1, ?_⟩, hab⟩
    · rw [if_pos ha.2]
    · rw [if_pos hb.2]
  constructor
  · intro r hs
    refine ⟨_, _, by unfold dofS; rw [if_pos hs, hcl]; simp only; rw [if_pos (hk r.1)],
      by unfold dofU; rw [hs, hcl]; simp only [Bool.true_or, if_true]; rw [if_pos (hk r.1)], ?_, ?_⟩
    · unfold nUnique
      refine card_pos.2 (Nonempty.image ⟨r, ?_⟩ _)
      cases pl <;> simp [cohortKey]
    · exact hU r r hs (mem_peers_self P r)
  · intro r hct hn
    refine ⟨_, _, by unfold dofC; rw [if_pos hct, hcl]; simp only; rw [if_pos (hk r.1)],
      by unfold dofU; rw [hct, hcl]; simp only [Bool.or_true, if_true]; rw [if_pos (hk r.1)], ?_, ?_⟩
    · unfold nUnique
      exact card_pos.2 (Nonempty.image ⟨r, mem_peers_self P r⟩ _)
    · rw [nTreatedD_sum] at hn
      obtain ⟨s, hs, -⟩ := exists_ne_zero_of_sum_ne_zero hn
      rw [mem_filter] at hs
      exact hU r s hs.2 hs.1

/-- Multiplying the changes multiplies the influence values. -/
theorem infVar_scale (e : K) (hD : ∀ r, D' r = (D r).map fun x => e * x) (pl : Bool) (r : P.Row) :
    infVar P o h D' v pl r = e * infVar P o h D v pl r := by
  have H : ∀ r, (D' r).isSome = (D r).isSome := fun r => by rw [hD]; simp
  have hm : ∀ A, meanOver P D' A = e * meanOver P D A := fun A => meanOver_scale P D D' A e fun s _ => hD s
  have hE : eHat P o h D' v pl r = e * eHat P o h D v pl r := by
    unfold eHat meanS meanC meanU
    rw [dofS_congr P o h D D' v H, dofC_congr P o D D' v H, dofU_congr P o h D D' v H, isSwD_congr P o h D D' H,
      isCtD_congr P o D D' H, cohort_congr P o h D D' v H, ctGroup_congr P o D D' H, unGroup_congr P o h D D' H]
    simp only [hm, mul_ite, mul_zero]
  unfold infVar
  rw [contrastD_congr P o h D D' H, scaleGN_congr P o h D D' H, dofScale_congr P o h D D' v H, hE, hD]
  cases hx : contrastD P o h D r with
  | none => simp
  | some a =>
    simp only [Option.map_some, Option.getD_some]
    cases D r with
    | none => simp; ring
    | some x => simp only [Option.map_some, Option.getD_some]; ring

end shift

end Verif.Inter
