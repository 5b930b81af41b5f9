import Verif.Honest.CompiledModel
import Verif.Honest.Props

/-!
# C89: the data-driven smoothness bound
-/

set_option linter.unusedSectionVars false
set_option linter.unusedSimpArgs false

namespace Verif.Honest

open Finset

variable {K : Type*} [Field K] [LinearOrder K] [IsStrictOrderedRing K]

theorem foldl_max_spec (l : List K) (x : K) :
    (∀ y ∈ x :: l, y ≤ l.foldl max x) ∧ l.foldl max x ∈ x :: l := by
  induction l generalizing x with
  | nil => simp
  | cons z l ih =>
    obtain ⟨h1, h2⟩ := ih (max x z)
    rw [List.foldl_cons]
    have h0 := h1 _ (List.mem_cons_self ..)
    constructor
    · intro y hy
      simp only [List.mem_cons] at hy
      rcases hy with rfl | rfl | hy
      · exact (le_max_left _ _).trans h0
      · exact (le_max_right _ _).trans h0
      · exact h1 y (List.mem_cons_of_mem _ hy)
    · rcases List.mem_cons.1 h2 with h | h
      · rw [h]
        rcases max_choice x z with e | e <;> rw [e] <;> simp
      · simp [h]

theorem maxList_spec (l : List K) (M : K) (h : maxList l = some M) : (∀ y ∈ l, y ≤ M) ∧ M ∈ l := by
  cases l with
  | nil => exact absurd h (by simp [maxList])
  | cons x xs =>
    have := Option.some.inj h
    rw [← this]
    exact foldl_max_spec xs x

/-- The list maximised by `compute_delta_sd_upperbound_m`. -/
theorem upperM_list (p : ℕ) (hp : 3 ≤ p) (beta margin : ℕ → K) :
    upperM p beta margin = maxList ((List.range (p - 2)).map fun r => D2 beta r + margin r) := by
  unfold upperM
  rw [if_neg (by omega)]
  congr 1
  have hb : (boundsSecondDiffPy p 0 : List (ℕ → K)) = (List.range (p - 2)).map fun r => setSlice r [1, -2, 1] fun _ => 0 := by
    unfold boundsSecondDiffPy
    rw [if_pos hp]; simp
  rw [hb, List.length_map, List.length_range, List.zipWith_map_left, List.zipWith_self]
  refine List.map_congr_left fun r hr => ?_
  rw [dotN_second _ _ _ (by have := List.mem_range.1 hr; omega)]

/-- C89.  What the reported bound is: with at least three pre-periods it is the largest SIGNED second difference (plus margin)
among those not involving the reference period; with fewer it is an error. -/
theorem C89_upper_is_signed_max (p : ℕ) (beta margin : ℕ → K) :
    (upperM p beta margin = none ↔ p < 3) ∧
    ∀ M, upperM p beta margin = some M →
      (∀ r, r + 3 ≤ p → D2 beta r + margin r ≤ M) ∧ ∃ r, r + 3 ≤ p ∧ M = D2 beta r + margin r := by
  constructor
  · constructor
    · intro h
      by_contra hp
      rw [upperM_list p (by omega)] at h
      obtain ⟨k, hk⟩ : ∃ k, p - 2 = k + 1 := ⟨p - 3, by omega⟩
      rw [hk, List.range_succ_eq_map] at h
      simp [maxList] at h
    · intro h
      unfold upperM
      rw [if_pos h]
  · intro M h
    by_cases hp : p < 3
    · unfold upperM at h
      rw [if_pos hp] at h
      exact absurd h (by simp)
    · rw [upperM_list p (by omega)] at h
      obtain ⟨h1, h2⟩ := maxList_spec _ _ h
      constructor
      · intro r hr
        exact h1 _ (List.mem_map.2 ⟨r, List.mem_range.2 (by omega), rfl⟩)
      · obtain ⟨r, hr, e⟩ := List.mem_map.1 h2
        exact ⟨r, by have := List.mem_range.1 hr; omega, e.symm⟩

/-- C89 (violated: sign).  If every second difference of the pre-period coefficients is below minus its margin (strictly
concave pre-trend), the reported "upper bound" is negative, and no path whatsoever satisfies the smoothness restriction at
that bound, so the default grid of the sensitivity analysis consists of empty restriction sets. -/
theorem C89_sign_violated (p q : ℕ) (hp : 3 ≤ p) (beta margin : ℕ → K) (h : ∀ r, r + 3 ≤ p → D2 beta r + margin r < 0) :
    ∃ M, upperM p beta margin = some M ∧ M < 0 ∧ DeltaSD p q M = ∅ := by
  cases hu : upperM p beta margin with
  | none => exact absurd ((C89_upper_is_signed_max p beta margin).1.1 hu) (by omega)
  | some M =>
    obtain ⟨_, r, hr, e⟩ := (C89_upper_is_signed_max p beta margin).2 M hu
    have hM : M < 0 := by rw [e]; exact h r hr
    refine ⟨M, rfl, hM, ?_⟩
    rw [Set.eq_empty_iff_forall_notMem]
    intro v hv
    have := hv 0 (by omega)
    exact absurd (lt_of_le_of_lt this hM) (not_lt.2 (abs_nonneg _))

/-- C89 (violated: reference period).  Constant pre-period coefficients `c`: the reported bound without sampling error is 0,
although the path returns to zero at the reference period, where its second difference is `|c|`. -/
theorem C89_reference_violated (p q : ℕ) (hp : 3 ≤ p) (c : K) (hc : c ≠ 0) :
    upperM p (fun _ => c) (fun _ => 0) = some 0 ∧
      ∀ v : ℕ → K, (∀ j < p, v j = c) → |D2 (full p v) (p - 2)| = |c| ∧ v ∉ DeltaSD p q 0 := by
  constructor
  · cases hu : upperM p (fun _ => c) (fun _ => 0) with
    | none => exact absurd ((C89_upper_is_signed_max p _ _).1.1 hu) (by omega)
    | some M =>
      obtain ⟨_, r, hr, e⟩ := (C89_upper_is_signed_max p _ _).2 M hu
      rw [e]
      unfold D2
      congr 1; ring
  · intro v hv
    have e : |D2 (full p v) (p - 2)| = |c| := by
      have : D2 (full p v) (p - 2) = -c := by
        unfold D2 full
        rw [if_pos (by omega), if_pos (by omega), if_neg (by omega), if_pos (by omega), hv _ (by omega), hv _ (by omega)]
        ring
      rw [this, abs_neg]
    refine ⟨e, fun h => ?_⟩
    have := h (p - 2) (by omega)
    rw [e] at this
    exact hc (abs_nonpos_iff.1 this)

/-- C89.  `create_pre_period_constraint_matrix` with at least three pre-periods bounds, in both directions, exactly the second
differences that do not involve the reference period. -/
theorem C89_pre_matrix (p : ℕ) (hp : 3 ≤ p) (M : K) (hM : 0 ≤ M) (beta : ℕ → K) :
    ∃ A, prePeriodMatrix p = some A ∧ (Sat p A M beta ↔ ∀ r, r + 3 ≤ p → |D2 beta r| ≤ M) := by
  refine ⟨_, by unfold prePeriodMatrix; rw [if_neg (by omega)], ?_⟩
  rw [sat_pm]
  simp only [List.mem_map, List.mem_range, forall_exists_index, and_imp, forall_apply_eq_imp_iff₂]
  constructor
  · intro h r hr
    by_cases h3 : r = p - 3
    · have := h (p - 2) (by omega)
      rw [if_pos rfl, if_pos (by omega), dotN_second _ _ _ (by omega)] at this
      rw [h3]; exact this
    · have := h r (by omega)
      rw [if_neg (by omega), if_pos (by omega), dotN_second _ _ _ (by omega)] at this
      exact this
  · intro h r hr
    by_cases h2 : r = p - 2
    · rw [if_pos h2, if_pos (by omega), dotN_second _ _ _ (by omega)]
      exact h _ (by omega)
    · rw [if_neg h2]
      by_cases h3 : r < p - 3
      · rw [if_pos h3, dotN_second _ _ _ (by omega)]
        exact h _ (by omega)
      · rw [if_neg h3, dotN_zero, abs_zero]; exact hM

/-- C89 (violated).  With two pre-periods the same function bounds a FIRST difference: the path `(c, c)` passes for `M = 0`
although its second difference at the reference period is `|c|`. -/
theorem C89_two_periods_violated (c : K) (hc : c ≠ 0) :
    ∃ A, prePeriodMatrix 2 = some A ∧ Sat 2 A 0 (fun _ => c) ∧ (fun _ => c) ∉ DeltaSD 2 0 0 := by
  refine ⟨_, rfl, ?_, ?_⟩
  · rw [sat_pm]
    simp only [List.mem_map, List.mem_range, forall_exists_index, and_imp, forall_apply_eq_imp_iff₂]
    intro r hr
    have : r = 0 := by omega
    subst this
    simp [dotN, sum_range_succ, setSlice]
  · intro h
    have := h 0 (by omega)
    have e : D2 (full 2 fun _ => c) 0 = -c := by
      simp [D2, full]; ring
    rw [e, abs_neg] at this
    exact hc (abs_nonpos_iff.1 this)

example : upperM 4 (fun j => -(j : ℚ) ^ 2) (fun _ => 1) = some (-1) ∧ (∀ r, r + 3 ≤ 4 → D2 (fun j => -(j : ℚ) ^ 2) r + 1 < 0) := by
  constructor
  · decide +kernel
  · intro r _
    unfold D2
    push_cast
    ring_nf
    norm_num

end Verif.Honest
