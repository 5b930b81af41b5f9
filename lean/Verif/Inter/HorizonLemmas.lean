import Verif.Inter.HorizonSpec
import Mathlib.Tactic.Ring
import Mathlib.Algebra.BigOperators.Field
import Mathlib.Tactic.FieldSimp
import Mathlib.Tactic.LinearCombination
import Mathlib.Tactic.Linarith
import Mathlib.Algebra.Order.BigOperators.Group.Finset

/-! # Horizon estimator: lemmas -/

set_option linter.unusedSectionVars false
set_option linter.unusedSimpArgs false

namespace Verif.Inter

open Finset

variable {ι β K : Type*} [Fintype ι] [DecidableEq ι] [DecidableEq β] [Field K] [LinearOrder K]

theorem withTop_lt_succ (x : WithTop ℤ) (m : ℤ) : ¬ x < ((m + 1 : ℤ) : WithTop ℤ) ↔ (m : WithTop ℤ) < x := by
  induction x using WithTop.recTopCoe with
  | top => simp
  | coe a =>
    rw [WithTop.coe_lt_coe, WithTop.coe_lt_coe]; omega

theorem withTop_event (x : WithTop ℤ) (m : ℤ) (h : ℕ) :
    (((m : ℤ) : WithTop ℤ) + 1 = x + (((h : ℕ) : ℤ) : WithTop ℤ)) ↔ x = ((m - h + 1 : ℤ) : WithTop ℤ) := by
  induction x using WithTop.recTopCoe with
  | top =>
    simp only [WithTop.top_add, WithTop.top_ne_coe, iff_false]
    have : ((m : WithTop ℤ) + 1) = ((m + 1 : ℤ) : WithTop ℤ) := by norm_cast
    rw [this]; exact WithTop.coe_ne_top
  | coe a =>
    constructor
    · intro e
      have : m + 1 = a + (h : ℤ) := by exact_mod_cast e
      have : a = m - h + 1 := by omega
      exact_mod_cast this
    · intro hf
      have : a = m - h + 1 := by exact_mod_cast hf
      have : m + 1 = a + (h : ℤ) := by omega
      exact_mod_cast this

theorem isControl_iff (P : Frame ι β K) (o : Opt K) (s : P.Row) :
    isControl P o s = true ↔
      (P.time s : WithTop ℤ) < P.F s.1 ∧ (o.onlyNever = true → (o.tmax : WithTop ℤ) < P.F s.1) := by
  unfold isControl
  rw [Bool.and_eq_true, decide_eq_true_iff, Bool.not_eq_true', Bool.and_eq_false_iff, decide_eq_false_iff_not,
    withTop_lt_succ]
  cases o.onlyNever <;> simp

theorem dirOk_iff (o : Opt K) (S : ℤ) : dirOk o S = true ↔ Admitted o.dir S := by
  unfold dirOk Admitted
  cases o.dir <;> simp

theorem nControl_eq (P : Frame ι β K) (o : Opt K) (pl : Bool) (h : ℕ) (r : P.Row) :
    nControl P o pl h r = ∑ s ∈ controls P o pl h r, P.w s.1 s.2 := by
  unfold nControl controls peers
  rw [sum_filter, sum_filter]
  refine sum_congr rfl fun s _ => ?_
  unfold never
  by_cases e : P.time s = P.time r ∧ P.cell s.1 = P.cell r.1
  · rw [if_pos e]
    obtain ⟨e1, e2⟩ := e
    cases hd : P.diff pl h s with
    | none => simp
    | some x =>
      simp only [Option.map_some, Option.getD_some, ne_eq, reduceCtorEq, not_false_eq_true, and_true]
      by_cases hc : isControl P o s = true
      · have := (isControl_iff P o s).1 hc
        rw [if_pos hc, if_pos ⟨e1, e2, e1 ▸ this.1, this.2⟩, one_mul]
      · rw [if_neg hc, if_neg, zero_mul]
        rintro ⟨-, -, h1, h2⟩
        exact hc ((isControl_iff P o s).2 ⟨e1 ▸ h1, h2⟩)
  · rw [if_neg e, if_neg]
    rintro ⟨h1, h2, -⟩
    exact e ⟨h1, h2⟩

theorem mem_switcherRows (P : Frame ι β K) (o : Opt K) (pl : Bool) (h : ℕ) (r : P.Row) :
    r ∈ switcherRows P o pl h ↔ isEvent P o pl h r = true ∧ P.diff pl h r ≠ none := by
  unfold switcherRows isEvent
  simp only [mem_filter, mem_univ, true_and, Bool.and_eq_true, decide_eq_true_iff, withTop_event, nControl_eq, dirOk_iff]
  tauto

theorem dist_eq (P : Frame ι β K) (o : Opt K) (pl : Bool) (h : ℕ) (r : P.Row) :
    (dist P o pl h r).getD 0 = if r ∈ switcherRows P o pl h then 1 else 0 := by
  unfold dist
  simp only [mem_switcherRows P o pl h r]
  cases P.diff pl h r <;> simp

theorem dist_one_iff (P : Frame ι β K) (o : Opt K) (pl : Bool) (h : ℕ) (r : P.Row) :
    dist P o pl h r = some 1 ↔ r ∈ switcherRows P o pl h := by
  rw [mem_switcherRows]
  unfold dist
  cases P.diff pl h r with
  | none => simp
  | some x =>
    by_cases e : isEvent P o pl h r = true <;> simp [e]

theorem swMask_of_event {P : Frame ι β K} {o : Opt K} {pl : Bool} {h : ℕ} {r : P.Row}
    (e : isEvent P o pl h r = true) : swMask P o r.1 = true := by
  unfold isEvent at e
  simp only [Bool.and_eq_true] at e
  unfold swMask
  rw [e.2, e.1.2]; rfl

theorem distW_eq (P : Frame ι β K) (o : Opt K) (pl : Bool) (h : ℕ) (r : P.Row) :
    distW P o pl h r = if r ∈ switcherRows P o pl h then P.w r.1 r.2 else 0 := by
  simp only [mem_switcherRows P o pl h r]
  unfold distW dist
  by_cases e : isEvent P o pl h r = true
  · rw [if_pos (swMask_of_event e)]
    cases P.diff pl h r <;> simp [e]
  · cases P.diff pl h r <;> simp [e]

theorem usedUnits_eq (P : Frame ι β K) (o : Opt K) (pl : Bool) (h : ℕ) (i : ι) :
    i ∈ usedUnits P o pl h ↔ ∃ k : Fin (P.n i), (⟨i, k⟩ : P.Row) ∈ switcherRows P o pl h := by
  unfold usedUnits
  simp only [mem_filter, mem_univ, true_and, dist_one_iff]
  constructor
  · rintro ⟨k, h1, _⟩; exact ⟨k, h1⟩
  · rintro ⟨k, h1⟩
    exact ⟨k, h1, swMask_of_event (r := ⟨i, k⟩) ((mem_switcherRows ..).1 h1).1⟩

theorem usedUnits_empty (P : Frame ι β K) (o : Opt K) (pl : Bool) (h : ℕ) :
    usedUnits P o pl h = ∅ ↔ switcherRows P o pl h = ∅ := by
  constructor
  · intro e
    rw [eq_empty_iff_forall_notMem] at e ⊢
    rintro ⟨i, k⟩ hr
    exact e i ((usedUnits_eq ..).2 ⟨k, hr⟩)
  · intro e
    rw [eq_empty_iff_forall_notMem] at e ⊢
    intro i hi
    obtain ⟨k, hk⟩ := (usedUnits_eq ..).1 hi
    exact e _ hk

theorem peers_symm {P : Frame ι β K} {r s : P.Row} : s ∈ peers P r ↔ r ∈ peers P s := by
  unfold peers
  simp only [mem_filter, mem_univ, true_and]
  constructor <;> rintro ⟨a, b⟩ <;> exact ⟨a.symm, b.symm⟩

theorem peers_congr {P : Frame ι β K} {r s : P.Row} (e : s ∈ peers P r) : peers P s = peers P r := by
  unfold peers at e ⊢
  simp only [mem_filter, mem_univ, true_and] at e
  rw [e.1, e.2]

theorem nControl_congr {P : Frame ι β K} {o : Opt K} {pl : Bool} {h : ℕ} {r s : P.Row} (e : s ∈ peers P r) :
    nControl P o pl h s = nControl P o pl h r := by
  unfold nControl
  rw [peers_congr e]

theorem never_sum (P : Frame ι β K) (o : Opt K) (pl : Bool) (h : ℕ) (r : P.Row) :
    ∑ s ∈ peers P r, P.w s.1 s.2 * (never P o pl h s).getD 0 * (P.diff pl h s).getD 0 =
      ∑ s ∈ controls P o pl h r, P.w s.1 s.2 * (P.diff pl h s).getD 0 := by
  unfold controls peers
  rw [sum_filter, sum_filter]
  refine sum_congr rfl fun s _ => ?_
  unfold never
  by_cases e : P.time s = P.time r ∧ P.cell s.1 = P.cell r.1
  · rw [if_pos e]
    obtain ⟨e1, e2⟩ := e
    cases hd : P.diff pl h s with
    | none => simp
    | some x =>
      simp only [Option.map_some, Option.getD_some, ne_eq, reduceCtorEq, not_false_eq_true, and_true]
      by_cases hc : isControl P o s = true
      · have := (isControl_iff P o s).1 hc
        rw [if_pos hc, if_pos ⟨e1, e2, e1 ▸ this.1, this.2⟩, mul_one]
      · rw [if_neg hc, if_neg, mul_zero, zero_mul]
        rintro ⟨-, -, h1, h2⟩
        exact hc ((isControl_iff P o s).2 ⟨e1 ▸ h1, h2⟩)
  · rw [if_neg e, if_neg]
    rintro ⟨h1, h2, -⟩
    exact e ⟨h1, h2⟩

theorem infTemp_eq (P : Frame ι β K) (o : Opt K) (pl : Bool) (h : ℕ) (r : P.Row) :
    infTemp P o pl h r = (Fintype.card ι : K) / max (nSwW P o pl h) o.eps *
      (P.w r.1 r.2 * (if r ∈ switcherRows P o pl h then 1 else 0) * (P.diff pl h r).getD 0 -
        ∑ s ∈ peers P r, (if s ∈ switcherRows P o pl h then P.w s.1 s.2 else 0) /
          (if nControl P o pl h s = 0 then 1 else nControl P o pl h s) *
          (P.w r.1 r.2 * (never P o pl h r).getD 0 * (P.diff pl h r).getD 0)) := by
  have hT : ∑ s ∈ peers P r, (if s ∈ switcherRows P o pl h then P.w s.1 s.2 else 0) /
          (if nControl P o pl h s = 0 then 1 else nControl P o pl h s) *
          (P.w r.1 r.2 * (never P o pl h r).getD 0 * (P.diff pl h r).getD 0) =
      nTreated P o pl h r / (if nControl P o pl h r = 0 then 1 else nControl P o pl h r) *
          (P.w r.1 r.2 * (never P o pl h r).getD 0 * (P.diff pl h r).getD 0) := by
    unfold nTreated
    rw [sum_div, sum_mul]
    refine sum_congr rfl fun s hs => ?_
    rw [nControl_congr hs, distW_eq]
  rw [hT]
  have hd := dist_eq P o pl h r
  unfold infTemp
  unfold dist at hd ⊢
  cases hx : P.diff pl h r with
  | none => simp
  | some x =>
    rw [hx] at hd
    simp only [Option.map_some, Option.getD_some] at hd ⊢
    rw [hd]
    ring

/-- The sum of the row contributions is the sum of the rows' differences-in-differences. -/
theorem sum_infTemp (P : Frame ι β K) (o : Opt K) (pl : Bool) (h : ℕ) :
    ∑ r : P.Row, infTemp P o pl h r = (Fintype.card ι : K) / max (nSwW P o pl h) o.eps *
      ∑ r ∈ switcherRows P o pl h, P.w r.1 r.2 * rowDid P o pl h r := by
  simp only [infTemp_eq]
  rw [← mul_sum]
  congr 1
  rw [sum_sub_distrib]
  have h2 : ∑ r : P.Row, ∑ s ∈ peers P r, (if s ∈ switcherRows P o pl h then P.w s.1 s.2 else 0) /
          (if nControl P o pl h s = 0 then 1 else nControl P o pl h s) *
          (P.w r.1 r.2 * (never P o pl h r).getD 0 * (P.diff pl h r).getD 0) =
      ∑ s : P.Row, (if s ∈ switcherRows P o pl h then P.w s.1 s.2 else 0) /
          (if nControl P o pl h s = 0 then 1 else nControl P o pl h s) *
          ∑ r ∈ peers P s, P.w r.1 r.2 * (never P o pl h r).getD 0 * (P.diff pl h r).getD 0 := by
    simp only [mul_sum]
    rw [sum_comm' (t' := univ) (s' := fun s => peers P s)]
    intro r s
    simp only [mem_univ, true_and, and_true]
    exact peers_symm
  rw [h2, ← sum_sub_distrib]
  rw [← sum_filter_add_sum_filter_not univ (fun r => r ∈ switcherRows P o pl h)]
  have hz : ∑ r ∈ univ.filter (fun r => ¬ r ∈ switcherRows P o pl h),
      (P.w r.1 r.2 * (if r ∈ switcherRows P o pl h then 1 else 0) * (P.diff pl h r).getD 0 -
        (if r ∈ switcherRows P o pl h then P.w r.1 r.2 else 0) /
          (if nControl P o pl h r = 0 then 1 else nControl P o pl h r) *
          ∑ s ∈ peers P r, P.w s.1 s.2 * (never P o pl h s).getD 0 * (P.diff pl h s).getD 0) = 0 := by
    refine sum_eq_zero fun r hr => ?_
    rw [if_neg (mem_filter.1 hr).2, if_neg (mem_filter.1 hr).2]
    simp
  rw [hz, add_zero]
  have hs : univ.filter (fun r => r ∈ switcherRows P o pl h) = switcherRows P o pl h := by
    ext r; simp
  rw [hs]
  refine sum_congr rfl fun r hr => ?_
  rw [if_pos hr, if_pos hr, never_sum, nControl_eq]
  have hpos : 0 < ∑ s ∈ controls P o pl h r, P.w s.1 s.2 := by
    have := hr
    unfold switcherRows at this
    exact (mem_filter.1 this).2.2.2.2.2.2
  rw [if_neg hpos.ne']
  unfold rowDid
  ring

theorem nSwW_eq (P : Frame ι β K) (o : Opt K) (pl : Bool) (h : ℕ) :
    nSwW P o pl h = ∑ r ∈ switcherRows P o pl h, P.w r.1 r.2 := by
  unfold nSwW
  simp only [distW_eq]
  rw [← sum_filter]
  refine sum_congr ?_ fun _ _ => rfl
  ext r; simp

theorem unitInf_sum (P : Frame ι β K) (o : Opt K) (pl : Bool) (h : ℕ) :
    ∑ i, unitInf P o pl h i = ∑ r : P.Row, infTemp P o pl h r := by
  unfold unitInf
  rw [Fintype.sum_sigma]

end Verif.Inter
