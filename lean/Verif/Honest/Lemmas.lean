import Verif.Honest.Spec
import Mathlib.Algebra.BigOperators.Ring.Finset
import Mathlib.Tactic.Ring
import Mathlib.Tactic.Linarith
import Mathlib.Tactic.NormNum
import Mathlib.Tactic.FieldSimp

set_option linter.unusedSectionVars false
set_option linter.unusedSimpArgs false

namespace Verif.Honest

open Finset

section
variable {K : Type*} [Ring K]

theorem setSlice_two (r : ℕ) (a b : K) (row : ℕ → K) : setSlice r [a, b] row = setAt (r + 1) b (setAt r a row) := by
  funext j
  unfold setSlice setAt
  by_cases h1 : j < r
  · have : j - r = 0 := by omega
    rw [this, if_neg (by omega), if_neg (by omega)]
    show (if r ≤ j then a else row j) = row j
    rw [if_neg (by omega)]
  · by_cases h2 : j = r
    · subst h2
      simp
    · by_cases h3 : j = r + 1
      · subst h3
        simp
      · have : ∃ k, j - r = k + 2 := ⟨j - r - 2, by omega⟩
        obtain ⟨k, hk⟩ := this
        rw [hk]
        simp [h2, h3]

theorem setSlice_three (r : ℕ) (a b c : K) (row : ℕ → K) :
    setSlice r [a, b, c] row = setAt (r + 2) c (setAt (r + 1) b (setAt r a row)) := by
  funext j
  unfold setSlice setAt
  by_cases h1 : j < r
  · have : j - r = 0 := by omega
    rw [this, if_neg (by omega), if_neg (by omega), if_neg (by omega)]
    show (if r ≤ j then a else row j) = row j
    rw [if_neg (by omega)]
  · by_cases h2 : j = r
    · subst h2
      simp
    · by_cases h3 : j = r + 1
      · subst h3
        simp
      · by_cases h4 : j = r + 2
        · subst h4
          simp
        · have : ∃ k, j - r = k + 3 := ⟨j - r - 3, by omega⟩
          obtain ⟨k, hk⟩ := this
          rw [hk]
          simp [h2, h3, h4]

end

variable {K : Type*} [Field K] [LinearOrder K] [IsStrictOrderedRing K]

theorem dotN_setAt (n r : ℕ) (x : K) (row v : ℕ → K) (h : r < n) :
    dotN n (setAt r x row) v = dotN n row v + (x - row r) * v r := by
  unfold dotN
  have e : ∀ j ∈ range n, setAt r x row j * v j = row j * v j + (if j = r then (x - row r) * v r else 0) := by
    intro j _
    unfold setAt
    by_cases hj : j = r
    · subst hj; rw [if_pos rfl, if_pos rfl]; ring
    · rw [if_neg hj, if_neg hj]; ring
  rw [sum_congr rfl e, sum_add_distrib, sum_ite_eq', if_pos (mem_range.2 h)]

theorem dotN_zero (n : ℕ) (v : ℕ → K) : dotN n (fun _ => 0) v = 0 := by simp [dotN]

theorem dotN_neg (n : ℕ) (a v : ℕ → K) : dotN n (fun j => -a j) v = -dotN n a v := by
  simp [dotN, sum_neg_distrib]

theorem dotN_sub (n : ℕ) (a b v : ℕ → K) : dotN n (fun j => a j - b j) v = dotN n a v - dotN n b v := by
  simp [dotN, sub_mul, sum_sub_distrib]

theorem dotN_smul (n : ℕ) (c : K) (a v : ℕ → K) : dotN n (fun j => c * a j) v = c * dotN n a v := by
  simp [dotN, mul_assoc, Finset.mul_sum]

theorem dotN_first (n r : ℕ) (x : ℕ → K) (h : r + 2 ≤ n) : dotN n (setSlice r [-1, 1] fun _ => 0) x = D1 x r := by
  rw [setSlice_two, dotN_setAt _ _ _ _ _ (by omega), dotN_setAt _ _ _ _ _ (by omega), dotN_zero]
  unfold D1
  simp [setAt]; ring

theorem dotN_second (n r : ℕ) (x : ℕ → K) (h : r + 3 ≤ n) : dotN n (setSlice r [1, -2, 1] fun _ => 0) x = D2 x r := by
  rw [setSlice_three, dotN_setAt _ _ _ _ _ (by omega), dotN_setAt _ _ _ _ _ (by omega),
    dotN_setAt _ _ _ _ _ (by omega), dotN_zero]
  unfold D2
  simp [setAt]; ring

/-- Dropping the column of the reference period amounts to inserting a zero. -/
theorem dotN_delCol (p q : ℕ) (a v : ℕ → K) : dotN (p + q) (delCol p a) v = dotN (p + q + 1) a (full p v) := by
  induction q with
  | zero =>
    unfold dotN
    rw [add_zero, sum_range_succ, show full p v p = 0 by simp [full], mul_zero, add_zero]
    refine sum_congr rfl fun j hj => ?_
    have := mem_range.1 hj
    simp [delCol, full, this]
  | succ q ih =>
    unfold dotN at ih ⊢
    rw [← add_assoc, sum_range_succ, ih, sum_range_succ _ (p + q + 1)]
    congr 1
    have h1 : ¬ p + q < p := by omega
    have h2 : ¬ p + q + 1 < p := by omega
    have h3 : p + q + 1 ≠ p := by omega
    simp [delCol, full, h1, h2, h3]

theorem dotN_signed (n : ℕ) (b : Bool) (a v : ℕ → K) :
    dotN n (signed b a) v = (if b then 1 else -1) * dotN n a v := by
  cases b
  · have : signed false a = fun j => -a j := by funext j; simp [signed]
    rw [this, dotN_neg]; simp
  · have : signed true a = a := by funext j; simp [signed]
    rw [this]; simp

theorem sat_pm (n : ℕ) (A : List (ℕ → K)) (d : K) (v : ℕ → K) : Sat n (pm A) d v ↔ ∀ a ∈ A, |dotN n a v| ≤ d := by
  unfold Sat pm
  simp only [List.mem_append, List.mem_map]
  constructor
  · intro h a ha
    rw [abs_le']
    refine ⟨h a (Or.inl ha), ?_⟩
    rw [← dotN_neg]
    exact h _ (Or.inr ⟨a, ha, rfl⟩)
  · rintro h a (ha | ⟨b, hb, rfl⟩)
    · exact (abs_le'.1 (h a ha)).1
    · rw [dotN_neg]
      exact (abs_le'.1 (h b hb)).2

/-- Rows without entries above the threshold may be dropped when every dropped row is zero. -/
theorem sat_dropZero (n : ℕ) (tol : K) (A : List (ℕ → K))
    (hz : ∀ a ∈ A, (∀ j < n, |a j| ≤ tol) → ∀ j < n, a j = 0) (k : (ℕ → K) → K) (hk : ∀ a ∈ A, (∀ j < n, a j = 0) → k a ≤ 0) :
    (∀ a ∈ dropZeroRows n tol A, k a ≤ 0) ↔ ∀ a ∈ A, k a ≤ 0 := by
  unfold dropZeroRows
  simp only [List.mem_filter, decide_eq_true_eq]
  constructor
  · intro h a ha
    by_cases e : ∃ j ∈ range n, tol < |a j|
    · exact h a ⟨ha, e⟩
    · push Not at e
      exact hk a ha (hz a ha fun j hj => e j (mem_range.2 hj))
  · intro h a ha
    exact h a ha.1

theorem ubRows_eq (m q : ℕ) (mbar : K) (v : ℕ → K) :
    ubRows m q mbar v = (List.range (m + q)).map fun r => if r < m then v else fun j => mbar * v j := by
  unfold ubRows
  apply List.ext_getElem
  · simp
  · intro i h1 h2
    simp only [List.getElem_map, List.getElem_range]
    by_cases h : i < m
    · rw [List.getElem_append_left (by simpa using h), if_pos h]; simp
    · rw [List.getElem_append_right (by simpa using h), if_neg h]; simp

theorem absStack_eq (N : ℕ) (f g : ℕ → ℕ → K) :
    absStack ((List.range N).map f) ((List.range N).map g) =
      ((List.range N).map fun r j => f r j - g r j) ++ (List.range N).map fun r j => -f r j - g r j := by
  unfold absStack
  simp only [List.zipWith_map, List.zipWith_self]

theorem sat_absStack (n N : ℕ) (f g : ℕ → ℕ → K) (v : ℕ → K) :
    (∀ r ∈ absStack ((List.range N).map f) ((List.range N).map g), dotN n r v ≤ 0) ↔
      ∀ i < N, |dotN n (f i) v| ≤ dotN n (g i) v := by
  rw [absStack_eq]
  simp only [List.mem_append, List.mem_map, List.mem_range]
  constructor
  · intro h i hi
    have h1 := h _ (Or.inl ⟨i, hi, rfl⟩)
    have h2 := h _ (Or.inr ⟨i, hi, rfl⟩)
    rw [dotN_sub] at h1 h2
    rw [dotN_neg] at h2
    rw [abs_le']
    constructor <;> linarith
  · rintro h r (⟨i, hi, rfl⟩ | ⟨i, hi, rfl⟩)
    · rw [dotN_sub]
      have := (abs_le'.1 (h i hi)).1
      linarith
    · rw [dotN_sub, dotN_neg]
      have := (abs_le'.1 (h i hi)).2
      linarith

end Verif.Honest
