import Verif.Honest.Lemmas
import Mathlib.Tactic.LinearCombination
import Mathlib.Algebra.Order.Field.Rat

/-!
# C60-C62: constraint matrices
-/

set_option linter.unusedSectionVars false
set_option linter.unusedSimpArgs false

namespace Verif.Honest

open Finset

variable {K : Type*} [Field K] [LinearOrder K] [IsStrictOrderedRing K]

/-! ## C60: bounded second differences -/

theorem secondRow_dot (p q r : ℕ) (v : ℕ → K) (h : r + 2 ≤ p + q) :
    dotN (p + q) (delCol p (if r + 3 ≤ p + q + 1 then setSlice r [1, -2, 1] fun _ => 0 else fun _ => 0)) v =
      D2 (full p v) r := by
  rw [if_pos (by omega), dotN_delCol, dotN_second _ _ _ (by omega)]

/-- C60.  `A delta <= M` iff all second differences of the path, reference period included, are at most `M` in absolute
value. -/
theorem C60_sd (p q : ℕ) (M : K) (v : ℕ → K) : Sat (p + q) (sdMatrix p q) M v ↔ v ∈ DeltaSD p q M := by
  unfold sdMatrix
  rw [sat_pm]
  unfold secondDiffPy DeltaSD
  simp only [List.map_map, List.mem_map, List.mem_range, Function.comp, forall_exists_index, and_imp,
    forall_apply_eq_imp_iff₂, Set.mem_setOf_eq]
  constructor
  · intro h r hr
    have := h r (by omega)
    rwa [secondRow_dot p q r v hr] at this
  · intro h r hr
    have hr' : r + 2 ≤ p + q := by omega
    rw [secondRow_dot p q r v hr']
    exact h r hr'

/-- C60.  A linear path through the reference period satisfies the restriction for every `M >= 0`. -/
theorem C60_linear (p q : ℕ) (M : K) (hM : 0 ≤ M) (c : K) (v : ℕ → K)
    (hv : ∀ j ≤ p + q, full p v j = c * ((j : K) - p)) : Sat (p + q) (sdMatrix p q) M v := by
  rw [C60_sd]
  intro r hr
  unfold D2
  rw [hv r (by omega), hv (r + 1) (by omega), hv (r + 2) (by omega)]
  have : c * ((r : K) - p) - 2 * (c * (((r + 1 : ℕ) : K) - p)) + c * (((r + 2 : ℕ) : K) - p) = 0 := by
    push_cast; ring
  rw [this, abs_zero]
  exact hM

/-- C60.  With `M = 0` exactly the linear paths remain. -/
theorem C60_zero_linear (p q : ℕ) (v : ℕ → K) (hpq : 1 ≤ p + q) (hs : Sat (p + q) (sdMatrix p q) 0 v) :
    ∃ a c : K, ∀ j ≤ p + q, full p v j = a + c * j := by
  rw [C60_sd] at hs
  refine ⟨full p v 0, full p v 1 - full p v 0, fun j hj => ?_⟩
  have key : ∀ j, j + 1 ≤ p + q → full p v j = full p v 0 + (full p v 1 - full p v 0) * j ∧
      full p v (j + 1) = full p v 0 + (full p v 1 - full p v 0) * (j + 1 : ℕ) := by
    intro j
    induction j with
    | zero => intro _; constructor <;> simp
    | succ j ih =>
      intro hj
      obtain ⟨h1, h2⟩ := ih (by omega)
      have h3 := abs_nonpos_iff.1 (hs j (by omega))
      refine ⟨h2, ?_⟩
      unfold D2 at h3
      have : full p v (j + 1 + 1) = 2 * full p v (j + 1) - full p v j := by linear_combination h3
      rw [this, h1, h2]
      push_cast; ring
  rcases Nat.lt_or_ge j (p + q) with h | h
  · exact (key j h).1
  · have hj' : j = (p + q - 1) + 1 := by omega
    rw [hj']
    exact (key (p + q - 1) (by omega)).2

/-- C60.  The set grows with the bound. -/
theorem C60_monotone (p q : ℕ) (M M' : K) (h : M ≤ M') (v : ℕ → K) (hs : Sat (p + q) (sdMatrix p q) M v) :
    Sat (p + q) (sdMatrix p q) M' v := fun a ha => le_trans (hs a ha) h

/-- Second differences reaching into the post-treatment periods: which rows have a non-zero post-treatment entry. -/
theorem usesPost_second (p q i : ℕ) (h : i + 2 ≤ p + q) :
    usesPost p q (delCol p (setSlice i [1, -2, 1] fun _ => (0 : K))) = true ↔ p < i + 2 := by
  unfold usesPost
  rw [decide_eq_true_iff, setSlice_three]
  constructor
  · rintro ⟨j, hj, hne⟩
    by_contra hcon
    apply hne
    have h1 : ¬ p + j < p := by omega
    simp only [delCol, h1, if_false, setAt]
    rw [if_neg (by omega), if_neg (by omega), if_neg (by omega)]
  · intro hp
    refine ⟨i + 1 - p, mem_range.2 (by omega), ?_⟩
    rcases Nat.lt_or_ge (i + 1) p with hlt | hge
    · omega
    · have e : p + (i + 1 - p) = i + 1 := by omega
      rw [e]
      have h1 : ¬ i + 1 < p := by omega
      simp only [delCol, h1, if_false, setAt]
      simp

/-- C60.  With `post_period_moments_only` (and at least two post-treatment periods) exactly the second differences that reach
into the post-treatment periods are restricted. -/
theorem C60_post_only (p q : ℕ) (hq : 1 < q) (M : K) (v : ℕ → K) :
    Sat (p + q) (sdMatrixPost p q) M v ↔ ∀ r, p < r + 2 → r + 2 ≤ p + q → |D2 (full p v) r| ≤ M := by
  unfold sdMatrixPost
  simp only [if_pos hq]
  rw [sat_pm]
  unfold secondDiffPy
  simp only [List.map_map, List.mem_filter, List.mem_map, List.mem_range, Function.comp, and_imp, forall_exists_index,
    forall_apply_eq_imp_iff₂]
  constructor
  · intro h r hp hr
    have h3 : r + 3 ≤ p + q + 1 := by omega
    have := h r (by omega) (by rw [if_pos h3]; exact (usesPost_second p q r hr).2 hp)
    rwa [secondRow_dot p q r v hr] at this
  · intro h r hr hu
    have hr' : r + 2 ≤ p + q := by omega
    rw [if_pos (by omega)] at hu
    rw [secondRow_dot p q r v hr']
    exact h r ((usesPost_second p q r hr').1 hu) hr'

/-- Violations -2, -1 before and 1, 2 after the reference period. -/
def exPath (j : ℕ) : ℚ := [-2, -1, 1, 2].getD j 0

example : exPath ∈ DeltaSD 2 2 0 ∧
    Sat 4 (sdMatrix 2 2) 0 exPath := by
  have h : exPath ∈ DeltaSD 2 2 0 := by
    intro r hr
    have : r = 0 ∨ r = 1 ∨ r = 2 := by omega
    rcases this with rfl | rfl | rfl <;> simp [D2, full, exPath] <;> norm_num
  exact ⟨h, (C60_sd 2 2 0 _).2 h⟩

/-! ## C61: monotonicity and sign -/

theorem mono_dot (p q r : ℕ) (v : ℕ → K) (hp : 1 ≤ p) (hr : r < p + q) :
    dotN (p + q) (if r + 1 < p then setSlice r [1, -1] fun _ => 0
      else if r + 1 = p then setAt r 1 fun _ => 0
      else if r = p then setAt r (-1) fun _ => 0
      else setSlice (r - 1) [1, -1] fun _ => 0) v = full p v r - full p v (r + 1) := by
  split_ifs with h1 h2 h3
  · rw [setSlice_two, dotN_setAt _ _ _ _ _ (by omega), dotN_setAt _ _ _ _ _ (by omega), dotN_zero]
    have h4 : r < p := by omega
    simp [full, h1, h4, setAt]; ring
  · rw [dotN_setAt _ _ _ _ _ (by omega), dotN_zero]
    have h4 : r < p := by omega
    simp [full, h2, h4]
  · rw [dotN_setAt _ _ _ _ _ (by omega), dotN_zero]
    subst h3
    simp [full]
  · rw [setSlice_two, dotN_setAt _ _ _ _ _ (by omega), dotN_setAt _ _ _ _ _ (by omega), dotN_zero]
    have h4 : ¬ r < p := by omega
    have h5 : ¬ r + 1 < p := by omega
    have h6 : r + 1 ≠ p := by omega
    have h7 : r - 1 + 1 = r := by omega
    have h8 : r ≠ r - 1 := by omega
    simp [full, h3, h4, h5, h6, h7, setAt, h8]; ring

theorem usesPost_mono (p q r : ℕ) (hp : 1 ≤ p) (hr : r < p + q) :
    usesPost p q (if r + 1 < p then setSlice r [1, -1] fun _ => (0 : K)
      else if r + 1 = p then setAt r 1 fun _ => 0
      else if r = p then setAt r (-1) fun _ => 0
      else setSlice (r - 1) [1, -1] fun _ => 0) = true ↔ p ≤ r := by
  unfold usesPost
  rw [decide_eq_true_iff]
  constructor
  · rintro ⟨j, hj, hne⟩
    by_contra hcon
    apply hne
    by_cases h1 : r + 1 < p
    · rw [if_pos h1, setSlice_two]; unfold setAt
      rw [if_neg (by omega), if_neg (by omega)]
    · rw [if_neg h1, if_pos (by omega)]; unfold setAt
      rw [if_neg (by omega)]
  · intro h
    refine ⟨r - p, mem_range.2 (by omega), ?_⟩
    have e : p + (r - p) = r := by omega
    rw [if_neg (by omega), if_neg (by omega), e]
    by_cases h3 : r = p
    · rw [if_pos h3]; simp [setAt]
    · rw [if_neg h3, setSlice_two]
      have : r = r - 1 + 1 := by omega
      unfold setAt
      rw [if_pos this]
      norm_num

theorem mono_filter_sat (p q : ℕ) (hp : 1 ≤ p) (v : ℕ → K) (P : ℕ → Prop) (pr : (ℕ → K) → Bool) (c : K)
    (hpr : ∀ r < p + q, pr (if r + 1 < p then setSlice r [1, -1] fun _ => (0 : K)
      else if r + 1 = p then setAt r 1 fun _ => 0
      else if r = p then setAt r (-1) fun _ => 0
      else setSlice (r - 1) [1, -1] fun _ => 0) = true ↔ P r) :
    (∀ a ∈ ((monotonicityPy p q).filter fun a => decide (∃ j ∈ range (p + q), a j ≠ 0)).filter pr,
      c * dotN (p + q) a v ≤ 0) ↔ ∀ r < p + q, P r → c * (full p v r - full p v (r + 1)) ≤ 0 := by
  unfold monotonicityPy
  simp only [List.mem_filter, List.mem_map, List.mem_range, and_imp, forall_exists_index, forall_apply_eq_imp_iff₂,
    decide_eq_true_eq]
  constructor
  · intro h r hr hP
    rw [← mono_dot p q r v hp hr]
    by_cases e : ∃ j ∈ range (p + q), (if r + 1 < p then setSlice r [1, -1] fun _ => (0 : K)
      else if r + 1 = p then setAt r 1 fun _ => 0
      else if r = p then setAt r (-1) fun _ => 0
      else setSlice (r - 1) [1, -1] fun _ => 0) j ≠ 0
    · obtain ⟨j, hj, hne⟩ := e
      exact h r hr j hj hne ((hpr r hr).2 hP)
    · push Not at e
      have : dotN (p + q) (if r + 1 < p then setSlice r [1, -1] fun _ => (0 : K)
        else if r + 1 = p then setAt r 1 fun _ => 0
        else if r = p then setAt r (-1) fun _ => 0
        else setSlice (r - 1) [1, -1] fun _ => 0) v = 0 := by
        unfold dotN
        exact sum_eq_zero fun j hj => by rw [e j hj, zero_mul]
      rw [this, mul_zero]
  · intro h r hr _ _ _ hpr'
    rw [mono_dot p q r v hp hr]
    exact h r hr ((hpr r hr).1 hpr')

/-- C61.  `A delta <= 0` iff the path is increasing (decreasing); with `post_period_moments_only` iff it is from the reference
period on. -/
theorem C61_monotonicity (p q : ℕ) (hp : 1 ≤ p) (v : ℕ → K) :
    (∃ A, monotonicityConstraint p q "increasing" false = some A ∧ (Sat (p + q) A 0 v ↔ Increasing p q v)) ∧
    (∃ A, monotonicityConstraint p q "decreasing" false = some A ∧ (Sat (p + q) A 0 v ↔ Decreasing p q v)) ∧
    (∃ A, monotonicityConstraint p q "increasing" true = some A ∧
      (Sat (p + q) A 0 v ↔ ∀ r, p ≤ r → r < p + q → full p v r ≤ full p v (r + 1))) ∧
    (∃ A, monotonicityConstraint p q "decreasing" true = some A ∧
      (Sat (p + q) A 0 v ↔ ∀ r, p ≤ r → r < p + q → full p v (r + 1) ≤ full p v r)) := by
  have hdec : ("increasing" = "decreasing") = False := by simp
  have all := fun c => mono_filter_sat p q hp v (fun _ => True) (fun _ => true) c (by simp)
  have post := fun c => mono_filter_sat p q hp v (fun r => p ≤ r) (usesPost p q) c (fun r hr => usesPost_mono p q r hp hr)
  simp only [List.filter_true] at all
  have neg : ∀ A : List (ℕ → K), Sat (p + q) (A.map fun a j => -a j) 0 v ↔ ∀ a ∈ A, -1 * dotN (p + q) a v ≤ 0 := by
    intro A
    unfold Sat
    simp only [List.mem_map, forall_exists_index, and_imp, forall_apply_eq_imp_iff₂, dotN_neg, neg_one_mul]
  refine ⟨⟨(monotonicityPy p q).filter fun a => decide (∃ j ∈ range (p + q), a j ≠ 0),
      by unfold monotonicityConstraint; simp only [hdec]; simp, ?_⟩,
    ⟨((monotonicityPy p q).filter fun a => decide (∃ j ∈ range (p + q), a j ≠ 0)).map fun a j => -a j,
      by unfold monotonicityConstraint; simp, ?_⟩,
    ⟨((monotonicityPy p q).filter fun a => decide (∃ j ∈ range (p + q), a j ≠ 0)).filter (usesPost p q),
      by unfold monotonicityConstraint; simp only [hdec]; simp, ?_⟩,
    ⟨(((monotonicityPy p q).filter fun a => decide (∃ j ∈ range (p + q), a j ≠ 0)).filter (usesPost p q)).map
      fun a j => -a j, by unfold monotonicityConstraint; simp, ?_⟩⟩
  · have := all 1
    simp only [one_mul] at this
    refine Iff.trans Iff.rfl (this.trans ?_)
    · unfold Increasing
      simp
  · have := all (-1)
    refine Iff.trans (neg _) (this.trans ?_)
    · unfold Decreasing
      simp
  · have := post 1
    simp only [one_mul] at this
    refine Iff.trans Iff.rfl (this.trans ?_)
    · constructor
      · intro h r h1 h2; exact sub_nonpos.1 (h r h2 h1)
      · intro h r h1 h2; exact sub_nonpos.2 (h r h2 h1)
  · have := post (-1)
    refine Iff.trans (neg _) (this.trans ?_)
    · constructor
      · intro h r h1 h2; have := h r h2 h1; linarith
      · intro h r h1 h2; have := h r h2 h1; linarith

/-- C61.  `A delta <= 0` iff all post-treatment biases are positive (negative). -/
theorem C61_sign (p q : ℕ) (v : ℕ → K) :
    (∃ A, signConstraint p q "positive" = some A ∧ (Sat (p + q) A 0 v ↔ ∀ k < q, 0 ≤ v (p + k))) ∧
    (∃ A, signConstraint p q "negative" = some A ∧ (Sat (p + q) A 0 v ↔ ∀ k < q, v (p + k) ≤ 0)) := by
  have hd : ∀ k < q, dotN (p + q) (setAt (p + k) (-1 : K) fun _ => 0) v = -v (p + k) := by
    intro k hk
    rw [dotN_setAt _ _ _ _ _ (by omega), dotN_zero]; ring
  have hne : ("positive" = "negative") = False := by simp
  refine ⟨⟨(List.range q).map fun k => setAt (p + k) (-1 : K) fun _ => 0, by simp [signConstraint, hne], ?_⟩,
    ⟨((List.range q).map fun k => setAt (p + k) (-1 : K) fun _ => 0).map fun a j => -a j,
      by simp [signConstraint], ?_⟩⟩
  · unfold Sat
    simp only [List.mem_map, List.mem_range, forall_exists_index, and_imp, forall_apply_eq_imp_iff₂]
    constructor <;> intro h k hk <;> have := h k hk <;> rw [hd k hk] at * <;> linarith
  · unfold Sat
    simp only [List.map_map, List.mem_map, List.mem_range, forall_exists_index, and_imp, forall_apply_eq_imp_iff₂,
      Function.comp, dotN_neg]
    constructor
    · intro h k hk; have := h k hk; rw [hd k hk] at this; linarith
    · intro h k hk; rw [hd k hk]; have := h k hk; linarith

/-- C61.  Any other direction is refused. -/
theorem C61_direction (p q : ℕ) (d : String) (b : Bool) :
    (monotonicityConstraint (K := K) p q d b = none ↔ d ≠ "increasing" ∧ d ≠ "decreasing") ∧
    (signConstraint (K := K) p q d = none ↔ d ≠ "positive" ∧ d ≠ "negative") := by
  constructor
  · unfold monotonicityConstraint
    by_cases h1 : d = "decreasing"
    · simp [h1]
    · by_cases h2 : d = "increasing"
      · simp [h1, h2]
      · simp [h1, h2]
  · unfold signConstraint
    by_cases h1 : d = "negative"
    · simp [h1]
    · by_cases h2 : d = "positive"
      · simp [h1, h2]
      · simp [h1, h2]

example : Increasing 2 2 exPath := by
  intro r hr
  have : r = 0 ∨ r = 1 ∨ r = 2 ∨ r = 3 := by omega
  rcases this with rfl | rfl | rfl | rfl <;> simp [full, exPath] <;> norm_num

end Verif.Honest
