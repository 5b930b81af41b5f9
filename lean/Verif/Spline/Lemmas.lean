import Verif.Spline.Model
import Mathlib.Tactic.Linarith
import Mathlib.Tactic.NormNum
import Mathlib.Data.List.GetD

set_option linter.unusedSectionVars false
set_option linter.unusedSimpArgs false

namespace Verif.Spline

theorem sortQ_perm (l : List ℚ) : (sortQ l).Perm l := List.perm_insertionSort _ l

theorem sortQ_sorted (l : List ℚ) : (sortQ l).Pairwise (· ≤ ·) :=
  List.pairwise_insertionSort (· ≤ ·) l

theorem sortQ_length (l : List ℚ) : (sortQ l).length = l.length := (sortQ_perm l).length_eq

theorem mem_sortQ {l : List ℚ} {a : ℚ} : a ∈ sortQ l ↔ a ∈ l := (sortQ_perm l).mem_iff

theorem sortQ_of_sorted {l : List ℚ} (h : l.Pairwise (· ≤ ·)) : sortQ l = l :=
  List.Pairwise.insertionSort_eq h

theorem sortQ_eq_nil {l : List ℚ} : sortQ l = [] ↔ l = [] := by
  rw [← List.length_eq_zero_iff, sortQ_length, List.length_eq_zero_iff]

theorem minQ_le {l : List ℚ} {a : ℚ} (h : a ∈ l) : minQ l ≤ a := by
  have h' := mem_sortQ.2 h
  have hs := sortQ_sorted l
  unfold minQ
  cases hl : sortQ l with
  | nil => rw [hl] at h'; simp at h'
  | cons b t =>
    rw [hl] at h' hs
    simp only [List.headD_cons]
    rcases List.mem_cons.1 h' with e | e
    · exact e ▸ le_refl _
    · exact (List.pairwise_cons.1 hs).1 a e

theorem le_maxQ {l : List ℚ} {a : ℚ} (h : a ∈ l) : a ≤ maxQ l := by
  have h' := mem_sortQ.2 h
  have hs := sortQ_sorted l
  unfold maxQ
  have hne : sortQ l ≠ [] := List.ne_nil_of_mem h'
  obtain ⟨t, b, hl⟩ := List.eq_nil_or_concat (sortQ l) |>.resolve_left hne
  rw [List.concat_eq_append] at hl
  rw [hl] at h' hs ⊢
  simp only [List.getLastD_concat]
  rcases List.mem_append.1 h' with e | e
  · exact (List.pairwise_append.1 hs).2.2 a e b (by simp)
  · simp at e; exact e ▸ le_refl _

theorem minQ_mem {l : List ℚ} (h : l ≠ []) : minQ l ∈ l := by
  have hne : sortQ l ≠ [] := fun e => h (sortQ_eq_nil.1 e)
  unfold minQ
  cases hl : sortQ l with
  | nil => exact absurd hl hne
  | cons b t =>
    have : b ∈ sortQ l := by rw [hl]; simp
    exact mem_sortQ.1 this

theorem maxQ_mem {l : List ℚ} (h : l ≠ []) : maxQ l ∈ l := by
  have hne : sortQ l ≠ [] := fun e => h (sortQ_eq_nil.1 e)
  unfold maxQ
  obtain ⟨t, b, hl⟩ := List.eq_nil_or_concat (sortQ l) |>.resolve_left hne
  rw [List.concat_eq_append] at hl
  have : b ∈ sortQ l := by rw [hl]; simp
  rw [hl]; simpa using mem_sortQ.1 this

theorem unique_sorted (l : List ℚ) : (unique l).Pairwise (· < ·) := by
  have h1 : (unique l).Pairwise (· ≤ ·) :=
    List.Pairwise.sublist (List.dedup_sublist _) (sortQ_sorted l)
  have h2 : (unique l).Pairwise (· ≠ ·) := List.nodup_dedup _
  exact (h1.and h2).imp (fun h => lt_of_le_of_ne h.1 h.2)

theorem hasDup_eq_false {l : List ℚ} : hasDup l = false ↔ l.Nodup := by
  unfold hasDup unique
  rw [bne_eq_false_iff_eq, ← sortQ_length l]
  constructor
  · intro h
    have : (sortQ l).dedup = sortQ l := (List.dedup_sublist _).eq_of_length h
    exact (sortQ_perm l).nodup_iff.1 (List.dedup_eq_self.1 this)
  · intro h
    rw [List.dedup_eq_self.2 ((sortQ_perm l).nodup_iff.2 h)]

theorem unique_pair {lo hi : ℚ} (h : lo < hi) : unique [lo, hi] = [lo, hi] := by
  unfold unique
  rw [sortQ_of_sorted (by simpa using h.le), List.dedup_eq_self.2]
  simpa using h.ne

theorem isClose_self (a : ℚ) : isClose a a = true := by
  unfold isClose; simp

theorem searchRight_eq {l : List ℚ} (h : l.Pairwise (· ≤ ·)) (v : ℚ) :
    searchRight l v = l.countP (fun k => decide (k ≤ v)) := by
  unfold searchRight
  induction l with
  | nil => rfl
  | cons a t ih =>
    rw [List.pairwise_cons] at h
    by_cases hav : a ≤ v
    · simp [hav, ih h.2]
    · simp only [hav, decide_false, Bool.false_eq_true, not_false_eq_true,
        List.takeWhile_cons_of_neg, List.length_nil, List.countP_cons_of_neg]
      symm
      rw [List.countP_eq_zero]
      intro k hk
      have := h.1 k hk
      simp only [decide_eq_true_eq, not_le]
      linarith [not_le.1 hav]

theorem simpleKnots_length (lo hi : ℚ) (l : List ℚ) (o : ℕ) :
    (simpleKnots lo hi l o).length = l.length + 2 * o := by
  simp [simpleKnots]; omega

theorem simpleKnots_sorted {lo hi : ℚ} {l : List ℚ} (o : ℕ) (hl : l.Pairwise (· ≤ ·))
    (hb : lo < hi) (hin : ∀ k ∈ l, lo < k ∧ k < hi) :
    (simpleKnots lo hi l o).Pairwise (· ≤ ·) := by
  unfold simpleKnots
  rw [List.pairwise_append, List.pairwise_append]
  refine ⟨⟨List.pairwise_replicate.2 (Or.inr (le_refl _)), hl, ?_⟩,
    List.pairwise_replicate.2 (Or.inr (le_refl _)), ?_⟩
  · intro a ha b hb'
    rw [List.eq_of_mem_replicate ha]; exact (hin b hb').1.le
  · intro a ha b hb'
    rw [List.eq_of_mem_replicate hb']
    rcases List.mem_append.1 ha with h | h
    · rw [List.eq_of_mem_replicate h]; exact hb.le
    · exact (hin a h).2.le

theorem simpleKnots_count_lo {lo hi : ℚ} {l : List ℚ} (o : ℕ)
    (hb : lo < hi) (hin : ∀ k ∈ l, lo < k ∧ k < hi) :
    (simpleKnots lo hi l o).count lo = o := by
  unfold simpleKnots
  rw [List.count_append, List.count_append, List.count_replicate_self,
    List.count_eq_zero_of_not_mem (fun h => lt_irrefl _ (hin lo h).1), List.count_replicate]
  simp [hb.ne']

theorem simpleKnots_count_hi {lo hi : ℚ} {l : List ℚ} (o : ℕ)
    (hb : lo < hi) (hin : ∀ k ∈ l, lo < k ∧ k < hi) :
    (simpleKnots lo hi l o).count hi = o := by
  unfold simpleKnots
  rw [List.count_append, List.count_append, List.count_replicate_self,
    List.count_eq_zero_of_not_mem (fun h => lt_irrefl _ (hin hi h).2), List.count_replicate]
  simp [hb.ne]

/-! ### Reading a clamped sequence back -/

theorem extInternal_simple (lo hi : ℚ) (l : List ℚ) (d : ℕ) :
    extInternal d (simpleKnots lo hi l (d + 1)) = l := by
  unfold extInternal
  rw [simpleKnots_length]
  have h1 : (simpleKnots lo hi l (d + 1)).drop (d + 1) = l ++ List.replicate (d + 1) hi := by
    unfold simpleKnots
    rw [List.append_assoc, List.drop_append_of_le_length (by simp)]
    simp
  rw [h1, Nat.add_sub_cancel]
  simp

theorem extBoundary_simple (lo hi : ℚ) (l : List ℚ) (d : ℕ) :
    extBoundary d (simpleKnots lo hi l (d + 1)) = (lo, hi) := by
  unfold extBoundary
  have h1 : (simpleKnots lo hi l (d + 1)).getD d 0 = lo := by
    unfold simpleKnots
    rw [List.append_assoc, List.getD_append _ _ _ _ (by simp)]
    simp [List.getD_eq_getElem?_getD, List.getElem?_replicate]
  have h2 : (simpleKnots lo hi l (d + 1)).getD
      ((simpleKnots lo hi l (d + 1)).length - (d + 1)) 0 = hi := by
    rw [simpleKnots_length]
    unfold simpleKnots
    rw [List.getD_append_right _ _ _ _ (by simp; omega)]
    rw [List.getD_eq_getElem?_getD, List.getElem?_replicate]
    rw [if_pos (by simp; omega)]
    rfl
  rw [h1, h2]

theorem simple_first (lo hi : ℚ) (l : List ℚ) (d : ℕ) :
    (simpleKnots lo hi l (d + 1)).getD 0 0 = lo := by
  unfold simpleKnots; simp [List.replicate_succ]

theorem simple_last (lo hi : ℚ) (l : List ℚ) (d : ℕ) :
    (simpleKnots lo hi l (d + 1)).getD ((simpleKnots lo hi l (d + 1)).length - 1) 0 = hi := by
  rw [simpleKnots_length]
  unfold simpleKnots
  rw [List.getD_append_right _ _ _ _ (by simp; omega)]
  rw [List.getD_eq_getElem?_getD, List.getElem?_replicate, if_pos (by simp; omega)]
  rfl

theorem extFlag_simple {lo hi : ℚ} {l : List ℚ} (d : ℕ) (hl : l.Nodup) (hb : lo < hi)
    (hin : ∀ k ∈ l, lo < k ∧ k < hi) : extFlag d (simpleKnots lo hi l (d + 1)) = false := by
  unfold extFlag
  rw [extBoundary_simple, simple_first, simple_last, isClose_self, isClose_self]
  simp only [Bool.not_true, Bool.or_false, Bool.false_or]
  unfold extMult
  split
  · rfl
  · rw [extInternal_simple, extBoundary_simple, hasDup_eq_false]
    rw [List.nodup_append']
    refine ⟨hl, by simpa using hb.ne, ?_⟩
    intro a ha hb'
    have := hin a ha
    simp at hb'
    rcases hb' with rfl | rfl
    · exact lt_irrefl _ this.1
    · exact lt_irrefl _ this.2

end Verif.Spline
