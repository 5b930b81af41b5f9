import Verif.Honest.CombinedProps
import Mathlib.Tactic.Linarith
import Mathlib.Tactic.IntervalCases
import Mathlib.Algebra.Order.Ring.Rat

/-!
# C223: concrete cases
-/

set_option linter.unusedSectionVars false
set_option linter.unusedSimpArgs false

namespace Verif.Honest

open Finset

/-- Constraints on three coefficients, row by row. -/
theorem sat_three (A : List (ℕ → ℚ)) (v : ℕ → ℚ) : Sat 3 A 0 v ↔
    ∀ t ∈ A.map (fun a => (a 0, a 1, a 2)), t.1 * v 0 + t.2.1 * v 1 + t.2.2 * v 2 ≤ 0 := by
  unfold Sat
  simp only [List.mem_map, forall_exists_index, and_imp, forall_apply_eq_imp_iff₂, dotN, sum_range_succ, sum_range_zero, zero_add]

theorem ex_pos_rows : (Extra.positive.rows 2 1 : List (ℕ → ℚ)).map (fun a => (a 0, a 1, a 2)) = [(0, 0, -1)] := by decide +kernel

theorem ex_rm_rows (s : ℤ) (b : Bool) (h : s = 0 ∨ s = -1) :
    (rmMatrix (1 / 10 : ℚ) 2 1 1 s b).map (fun a => (a 0, a 1, a 2)) =
      if s = 0 then (if b then [(-1, 1, -1), (0, -1, -1), (1, -1, -1), (0, 1, -1), (0, 0, -2)]
        else [(-1, 1, 1), (0, -1, 1), (0, 0, 2), (1, -1, 1), (0, 1, 1)])
      else (if b then [(-1, 2, 0), (0, 1, 1), (1, 0, 0), (0, 2, 0), (0, 1, -1)]
        else [(-1, 0, 0), (0, -2, 0), (0, -1, 1), (1, -2, 0), (0, -1, -1)]) := by
  rcases h with rfl | rfl <;> cases b <;> decide +kernel

theorem ex_refs : Extra.positive.refs 2 = [-1, 0] := by decide +kernel

theorem ex_target21 (v : ℕ → ℚ) : target 2 1 (fun _ => 1) v = v 2 := by simp [target]

/-- Coefficients `0, 1` before the treatment (changes `1` and `-1`), `5` after it. -/
def exRmPath : ℕ → ℚ := fun j => if j = 0 then 0 else if j = 1 then 1 else 5

theorem ex_mem (s : ℤ) (h : s = 0 ∨ s = -1) (b : Bool) (beta : ℕ → ℚ) (v : ℕ → ℚ) :
    v ∈ rmFeasible (1 / 10 : ℚ) 2 1 1 .positive beta s b ↔
      (if s = 0 then (if b then -v 0 + v 1 ≤ v 2 ∧ -v 1 ≤ v 2 ∧ v 0 - v 1 ≤ v 2 ∧ v 1 ≤ v 2 ∧ -v 2 ≤ 0
          else -v 0 + v 1 ≤ -v 2 ∧ -v 1 ≤ -v 2 ∧ v 2 ≤ 0 ∧ v 0 - v 1 ≤ -v 2 ∧ v 1 ≤ -v 2)
        else (if b then -v 0 + v 1 ≤ -v 1 ∧ v 2 ≤ -v 1 ∧ v 0 ≤ 0 ∧ v 1 ≤ 0 ∧ -v 2 ≤ -v 1
          else -v 0 ≤ 0 ∧ -v 1 ≤ 0 ∧ v 2 ≤ v 1 ∧ v 0 - v 1 ≤ v 1 ∧ -v 2 ≤ v 1)) ∧ 0 ≤ v 2 ∧ v 0 = beta 0 ∧ v 1 = beta 1 := by
  unfold rmFeasible feasibleWith
  rw [Set.mem_ofPred_eq, sat_three, sat_three, ex_rm_rows s b h, ex_pos_rows]
  have hpre : (∀ j < 2, v j = beta j) ↔ v 0 = beta 0 ∧ v 1 = beta 1 := by
    constructor
    · intro h; exact ⟨h 0 (by omega), h 1 (by omega)⟩
    · rintro ⟨h0, h1⟩ j hj
      interval_cases j
      · exact h0
      · exact h1
  rw [hpre]
  rcases h with rfl | rfl <;> cases b <;>
    simp only [List.forall_mem_cons, List.not_mem_nil, false_imp_iff, implies_true, and_true, if_true, if_false, Bool.false_eq_true,
      reduceCtorEq, show ((-1 : ℤ) = 0) = False by simp] <;>
    (constructor
     · rintro ⟨⟨⟨h1, h2, h3, h4, h5⟩, h6⟩, h7⟩
       refine ⟨⟨?_, ?_, ?_, ?_, ?_⟩, ?_, h7⟩ <;> linarith
     · rintro ⟨⟨h1, h2, h3, h4, h5⟩, h6, h7⟩
       refine ⟨⟨⟨?_, ?_, ?_, ?_, ?_⟩, ?_⟩, h7⟩ <;> linarith)

/-- Solver results: for `(-1, -)` the bias lies in `[0, 1]`; for `(0, +)` it is at least one and unbounded; the rest is infeasible. -/
def exMax (s : ℤ) (b : Bool) : Option ℚ := if s = -1 ∧ b = false then some (-1) else none
def exMin (s : ℤ) (b : Bool) : Option ℚ := if s = -1 ∧ b = false then some 0 else if s = 0 ∧ b = true then some 1 else none

theorem ex_unbounded (S : Set (ℕ → ℚ)) (f : (ℕ → ℚ) → ℚ) (h : ∀ c : ℚ, ∃ v ∈ S, f v < c) : ¬ BddBelow (f '' S) := by
  rintro ⟨c, hc⟩
  obtain ⟨v, hv, h1⟩ := h c
  exact absurd (hc ⟨v, hv, rfl⟩) (not_le.2 h1)

theorem ex_lps : LpsOk 2 1 (fun _ => 1) (Extra.positive.refs 2) (rmFeasible (1 / 10 : ℚ) 2 1 1 .positive exRmPath) exMax exMin := by
  have hb0 : exRmPath 0 = 0 := rfl
  have hb1 : exRmPath 1 = 1 := rfl
  intro s hs b
  rw [ex_refs] at hs
  have hs' : s = 0 ∨ s = -1 := by
    simp only [List.mem_cons, List.not_mem_nil, or_false] at hs
    exact hs.symm
  have hmem := ex_mem s hs' b exRmPath
  rw [hb0, hb1] at hmem
  rcases hs' with rfl | rfl <;> cases b
  · have he : rmFeasible (1 / 10 : ℚ) 2 1 1 .positive exRmPath 0 false = ∅ := by
      rw [Set.eq_empty_iff_forall_notMem]
      intro v hv
      rw [hmem] at hv
      simp only [if_true, Bool.false_eq_true, if_false] at hv
      linarith [hv.1.1, hv.2.1, hv.2.2.1, hv.2.2.2]
    exact ⟨Or.inl he, Or.inl he⟩
  · constructor
    · refine Or.inr (ex_unbounded _ _ fun c => ?_)
      refine ⟨fun j => if j = 0 then 0 else if j = 1 then 1 else 1 + |c| , ?_, ?_⟩
      · rw [hmem]
        have := abs_nonneg c
        simp only [if_true, one_ne_zero, if_false, OfNat.ofNat_ne_zero, OfNat.ofNat_ne_one, and_true]
        refine ⟨⟨?_, ?_, ?_, ?_, ?_⟩, ?_⟩ <;> linarith
      · beta_reduce
        rw [ex_target21]
        simp only [OfNat.ofNat_ne_zero, OfNat.ofNat_ne_one, if_false]
        linarith [neg_abs_le c]
    · refine ⟨⟨fun j => if j = 0 then 0 else 1, ?_, ?_⟩, ?_⟩
      · rw [hmem]; simp
      · rw [ex_target21]; simp
      · rintro _ ⟨v, hv, rfl⟩
        rw [hmem] at hv
        rw [ex_target21]
        simp only [if_true] at hv
        linarith [hv.1.1, hv.2.2.1, hv.2.2.2]
  · constructor
    · refine ⟨⟨fun j => if j = 0 then 0 else 1, ?_, ?_⟩, ?_⟩
      · rw [hmem]; simp
      · beta_reduce; rw [ex_target21]; simp
      · rintro _ ⟨v, hv, rfl⟩
        rw [hmem] at hv
        beta_reduce
        rw [ex_target21]
        simp only [show ((-1 : ℤ) = 0) = False by simp, Bool.false_eq_true, if_false] at hv
        linarith [hv.1.2.2.1, hv.2.2.2]
    · refine ⟨⟨fun j => if j = 1 then 1 else 0, ?_, ?_⟩, ?_⟩
      · rw [hmem]; simp
      · rw [ex_target21]; simp
      · rintro _ ⟨v, hv, rfl⟩
        rw [hmem] at hv
        rw [ex_target21]
        exact hv.2.1
  · have he : rmFeasible (1 / 10 : ℚ) 2 1 1 .positive exRmPath (-1) true = ∅ := by
      rw [Set.eq_empty_iff_forall_notMem]
      intro v hv
      rw [hmem] at hv
      simp only [show ((-1 : ℤ) = 0) = False by simp, if_true, if_false] at hv
      linarith [hv.1.1, hv.2.1, hv.2.2.1, hv.2.2.2]
    exact ⟨Or.inl he, Or.inl he⟩

theorem ex_full21 (v : ℕ → ℚ) : full 2 v 0 = v 0 ∧ full 2 v 1 = v 1 ∧ full 2 v 2 = 0 ∧ full 2 v 3 = v 2 := by
  simp [full]

/-- `C223_rm_exact` applies: coefficients `0, 1 | 5`, positive bias, `Mbar = 1`; the reported set is the identified set. -/
example : ∃ r, rmSet 2 1 .positive exRmPath (fun _ => 1) exMax exMin = some r ∧
    ∀ θ, (r.1 ≤ θ ∧ θ ≤ r.2) ↔ θ ∈ IdSet 2 1 {v | v ∈ DeltaRM 2 1 1 ∧ Extra.positive.Holds 2 1 v} exRmPath (fun _ => 1) := by
  refine C223_rm_exact (1 / 10) (by norm_num) (by norm_num) 2 1 le_rfl le_rfl 1 zero_le_one .positive exRmPath (fun _ => 1) ?_ ?_
    exMax exMin ex_lps
  · refine ⟨1, le_rfl, by omega, ?_⟩
    intro r hr
    interval_cases r <;> simp [D1, full, exRmPath]
  · refine ⟨5, fun j => if j = 1 then 1 else 0, ⟨⟨1, by omega, ?_, ?_⟩, ?_⟩, ?_, ?_⟩
    · intro r hr
      interval_cases r <;> simp [D1, full]
    · intro t ht ht'
      interval_cases t
      simp [D1, full]
    · intro k hk
      interval_cases k
      simp
    · intro j hj
      interval_cases j <;> simp [exRmPath]
    · rw [Finset.sum_range_one]; simp [exRmPath]

/-- The set reported there is `[4, 5]`. -/
example : rmSet 2 1 .positive exRmPath (fun _ => 1) exMax exMin = some (4, 5) := by decide +kernel

example : rmSet 1 1 .positive exRmPath (fun _ => 1) exMax exMin = none := by decide +kernel

/-! A path whose first change is the largest: `2, 0 | 1`. -/

/-- Violations `2, 0` before and `1` after the treatment. -/
def exFirst : ℕ → ℚ := fun j => if j = 0 then 2 else if j = 1 then 0 else 1
def exFirstMin (s : ℤ) (b : Bool) : Option ℚ := if s = 0 ∧ b = true then some 2 else none

theorem ex_first_lps : LpsOk 2 1 (fun _ => 1) (Extra.positive.refs 2)
    (rmFeasible (1 / 10 : ℚ) 2 1 1 .positive (observe 2 exFirst fun _ => 7)) (fun _ _ => none) exFirstMin := by
  have hb0 : observe 2 exFirst (fun _ => 7) 0 = 2 := rfl
  have hb1 : observe 2 exFirst (fun _ => 7) 1 = 0 := rfl
  intro s hs b
  rw [ex_refs] at hs
  have hs' : s = 0 ∨ s = -1 := by
    simp only [List.mem_cons, List.not_mem_nil, or_false] at hs
    exact hs.symm
  have hmem := ex_mem s hs' b (observe 2 exFirst fun _ => 7)
  rw [hb0, hb1] at hmem
  have hcase : (s = 0 ∧ b = true) ∨ rmFeasible (1 / 10 : ℚ) 2 1 1 .positive (observe 2 exFirst fun _ => 7) s b = ∅ ∧ ¬(s = 0 ∧ b = true) := by
    rcases hs' with rfl | rfl <;> cases b
    · right
      refine ⟨?_, by simp⟩
      rw [Set.eq_empty_iff_forall_notMem]
      intro v hv
      rw [hmem] at hv
      simp only [if_true, Bool.false_eq_true, if_false] at hv
      linarith [hv.1.2.2.2.1, hv.2.1, hv.2.2.1, hv.2.2.2]
    · exact Or.inl ⟨rfl, rfl⟩
    · right
      refine ⟨?_, by simp⟩
      rw [Set.eq_empty_iff_forall_notMem]
      intro v hv
      rw [hmem] at hv
      simp only [show ((-1 : ℤ) = 0) = False by simp, Bool.false_eq_true, if_false] at hv
      linarith [hv.1.2.2.2.1, hv.2.1, hv.2.2.1, hv.2.2.2]
    · right
      refine ⟨?_, by simp⟩
      rw [Set.eq_empty_iff_forall_notMem]
      intro v hv
      rw [hmem] at hv
      simp only [show ((-1 : ℤ) = 0) = False by simp, if_true, if_false] at hv
      linarith [hv.1.2.2.1, hv.2.1, hv.2.2.1, hv.2.2.2]
  rcases hcase with ⟨rfl, rfl⟩ | ⟨he, hn⟩
  · constructor
    · refine Or.inr (ex_unbounded _ _ fun c => ?_)
      refine ⟨fun j => if j = 0 then 2 else if j = 1 then 0 else 2 + |c| , ?_, ?_⟩
      · rw [hmem]
        have := abs_nonneg c
        simp only [if_true, one_ne_zero, if_false, OfNat.ofNat_ne_zero, OfNat.ofNat_ne_one, and_true]
        refine ⟨⟨?_, ?_, ?_, ?_, ?_⟩, ?_⟩ <;> linarith
      · beta_reduce
        rw [ex_target21]
        simp only [OfNat.ofNat_ne_zero, OfNat.ofNat_ne_one, if_false]
        linarith [neg_abs_le c]
    · have : exFirstMin 0 true = some 2 := rfl
      rw [this]
      refine ⟨⟨fun j => if j = 1 then 0 else 2, ?_, ?_⟩, ?_⟩
      · rw [hmem]; simp
      · rw [ex_target21]; simp
      · rintro _ ⟨v, hv, rfl⟩
        rw [hmem] at hv
        rw [ex_target21]
        simp only [if_true] at hv
        linarith [hv.1.2.2.1, hv.2.2.1, hv.2.2.2]
  · refine ⟨Or.inl he, ?_⟩
    have : exFirstMin s b = none := by simp [exFirstMin]; simpa using hn
    rw [this]
    exact Or.inl he

/-- `C223_rm_first_violated` applies: the true effect is `7`, the reported set is the point `8`. -/
example : ∃ x, rmSet 2 1 .positive (observe 2 exFirst fun _ => 7) (fun _ => 1) (fun _ _ => none) exFirstMin = some (x, x) ∧
    ∑ k ∈ range 1, (fun _ => (1 : ℚ)) k * (fun _ => (7 : ℚ)) k ≠ x := by
  refine C223_rm_first_violated (1 / 10) (by norm_num) (by norm_num) 2 1 le_rfl le_rfl 1 .positive exFirst (fun _ => 7) (fun _ => 1) ?_ ?_ ?_
    _ _ ex_first_lps
  · refine ⟨⟨0, by omega, ?_, ?_⟩, ?_⟩
    · intro r hr
      interval_cases r <;> norm_num [D1, full, exFirst]
    · intro t ht ht'
      interval_cases t
      norm_num [D1, full, exFirst]
    · intro k hk
      interval_cases k
      norm_num [exFirst]
  · intro r hr hr'
    interval_cases r
    norm_num [D1, full, exFirst]
  · norm_num [target, exFirst]

/-! Deviations from a linear trend: coefficients `-3, -1` before the treatment (second difference `-1`), `Mbar = 0`. -/

/-- Coefficients. -/
def exKink : ℕ → ℚ := fun j => if j = 0 then -3 else if j = 1 then -1 else 0

theorem ex_sd_rows (b : Bool) : (sdrmMatrix (1 / 10 : ℚ) 2 1 0 0 b).map (fun a => (a 0, a 1, a 2)) =
    if b then [(0, 1, 1), (-2, 4, 0), (0, -1, -1)] else [(2, -4, 0), (0, 1, 1), (0, -1, -1)] := by
  cases b <;> decide +kernel

theorem ex_sd_refs : sRangeSDRM 2 = [0] := by decide +kernel

theorem ex_sd_mem (b : Bool) (v : ℕ → ℚ) :
    v ∈ sdrmFeasible (1 / 10 : ℚ) 2 1 0 .positive exKink 0 b ↔ b = false ∧ v 0 = -3 ∧ v 1 = -1 ∧ v 2 = 1 := by
  unfold sdrmFeasible feasibleWith
  rw [Set.mem_ofPred_eq, sat_three, sat_three, ex_sd_rows b, ex_pos_rows]
  have hpre : (∀ j < 2, v j = exKink j) ↔ v 0 = -3 ∧ v 1 = -1 := by
    constructor
    · intro h; exact ⟨h 0 (by omega), h 1 (by omega)⟩
    · rintro ⟨h0, h1⟩ j hj
      interval_cases j
      · exact h0
      · exact h1
  rw [hpre]
  cases b <;>
    simp only [List.forall_mem_cons, List.not_mem_nil, false_imp_iff, implies_true, and_true, if_true, if_false, Bool.false_eq_true,
      true_and, false_and, reduceCtorEq, iff_false]
  · constructor
    · rintro ⟨⟨⟨h1, h2, h3⟩, h4⟩, h5, h6⟩
      exact ⟨h5, h6, by linarith⟩
    · rintro ⟨h5, h6, h7⟩
      refine ⟨⟨⟨?_, ?_, ?_⟩, ?_⟩, h5, h6⟩ <;> linarith
  · rintro ⟨⟨⟨h1, h2, h3⟩, h4⟩, h5, h6⟩
    linarith

def exSdMax (_ : ℤ) (b : Bool) : Option ℚ := if b then none else some (-1)
def exSdMin (_ : ℤ) (b : Bool) : Option ℚ := if b then none else some 1

theorem ex_sd_lps : LpsOk 2 1 (fun _ => 1) (sRangeSDRM 2) (sdrmFeasible (1 / 10 : ℚ) 2 1 0 .positive exKink) exSdMax exSdMin := by
  intro s hs b
  rw [ex_sd_refs, List.mem_singleton] at hs
  subst hs
  cases b
  · constructor
    · refine ⟨⟨fun j => if j = 0 then -3 else if j = 1 then -1 else 1, ?_, ?_⟩, ?_⟩
      · rw [ex_sd_mem]; simp
      · beta_reduce; rw [ex_target21]; simp
      · rintro _ ⟨v, hv, rfl⟩
        rw [ex_sd_mem] at hv
        beta_reduce
        rw [ex_target21, hv.2.2.2]
    · refine ⟨⟨fun j => if j = 0 then -3 else if j = 1 then -1 else 1, ?_, ?_⟩, ?_⟩
      · rw [ex_sd_mem]; simp
      · rw [ex_target21]; simp
      · rintro _ ⟨v, hv, rfl⟩
        rw [ex_sd_mem] at hv
        rw [ex_target21, hv.2.2.2]
  · have he : sdrmFeasible (1 / 10 : ℚ) 2 1 0 .positive exKink 0 true = ∅ := by
      rw [Set.eq_empty_iff_forall_notMem]
      intro v hv
      rw [ex_sd_mem] at hv
      exact absurd hv.1 (by simp)
    exact ⟨Or.inl he, Or.inl he⟩

theorem ex_sd_nonempty : (-1 : ℚ) ∈ IdSet 2 1 {v | v ∈ DeltaSDRM 2 1 0 ∧ Extra.positive.Holds 2 1 v} exKink (fun _ => 1) := by
  refine ⟨fun j => if j = 0 then -3 else if j = 1 then -1 else 1, ⟨⟨0, le_rfl, ?_, ?_⟩, ?_⟩, ?_, ?_⟩
  · intro r hr
    have : r = 0 := by omega
    subst this
    exact le_rfl
  · intro t ht ht'
    have : t = 1 := by omega
    subst this
    norm_num [D2, full]
  · intro k hk
    interval_cases k
    norm_num
  · intro j hj
    interval_cases j <;> norm_num [exKink]
  · norm_num [exKink]

/-- `C223_sdrm_set` applies. -/
example : ∃ r, sdrmSet 2 1 exKink (fun _ => 1) exSdMax exSdMin = some r ∧ r.1 ≤ -1 ∧ -1 ≤ r.2 := by
  obtain ⟨r, h1, h2, -⟩ := C223_sdrm_set (1 / 10) (by norm_num) (by norm_num) 2 1 le_rfl 0 .positive exKink (fun _ => 1)
    ⟨_, ex_sd_nonempty⟩ exSdMax exSdMin ex_sd_lps
  exact ⟨r, h1, h2 _ ex_sd_nonempty⟩

/-- C223 (violated).  Concretely: the only effect compatible with the restriction is `-1`, but the whole interval `[-1, 0]` is reported. -/
theorem C223_sdrm_interval_violated :
    LpsOk 2 1 (fun _ => 1) (sRangeSDRM 2) (sdrmFeasible (1 / 10 : ℚ) 2 1 0 .positive exKink) exSdMax exSdMin ∧
    sdrmSet 2 1 exKink (fun _ => 1) exSdMax exSdMin = some (-1, 0) ∧
    IdSet 2 1 {v | v ∈ DeltaSDRM 2 1 0 ∧ Extra.positive.Holds 2 1 v} exKink (fun _ => 1) = {(-1 : ℚ)} := by
  refine ⟨ex_sd_lps, by decide +kernel, ?_⟩
  refine Set.eq_singleton_iff_unique_mem.2 ⟨ex_sd_nonempty, ?_⟩
  rintro θ ⟨δ, ⟨⟨s, hs, _, h⟩, _⟩, hpre, rfl⟩
  have h1 := h 1 (by omega) (by omega)
  have h2 := hpre 1 (by omega)
  rw [zero_mul, abs_nonpos_iff] at h1
  have e : D2 (full 2 δ) 1 = δ 1 + δ 2 := by simp [D2, full]
  rw [e, h2] at h1
  have h3 : δ 2 = 1 := by
    have : exKink 1 = -1 := rfl
    rw [this] at h1; linarith
  simp [h3, exKink]

/-- `C223_sdrm_point_violated` applies. -/
example : ∃ r, sdrmSet 2 1 exKink (fun _ => 1) exSdMax exSdMin = some r ∧ r.1 ≤ target 2 1 (fun _ => 1) exKink ∧
    target 2 1 (fun _ => 1) exKink ≤ r.2 :=
  C223_sdrm_point_violated (1 / 10) (by norm_num) (by norm_num) 2 1 0 .positive exKink (fun _ => 1)
    ⟨0, le_rfl, by norm_num [D2, full, exKink]⟩ exSdMax exSdMin ex_sd_lps

end Verif.Honest
