import Mathlib.Algebra.BigOperators.Fin
import Mathlib.Algebra.BigOperators.Field
import Mathlib.Algebra.Order.BigOperators.Ring.Finset
import Mathlib.Data.Real.Basic
import Mathlib.Data.Fintype.Sum
import Mathlib.Data.Fintype.Prod
import Mathlib.Data.Finset.Lattice.Fold
import Mathlib.Tactic.Linarith
import Mathlib.Tactic.Ring

/-!
# Farkas' lemma for finite systems of linear inequalities (Fourier-Motzkin elimination)
-/

set_option linter.unusedSectionVars false
set_option linter.unusedSimpArgs false

namespace Verif.Honest

open Finset

/-- A number between finitely many lower and upper bounds. -/
theorem exists_between_finite {ι : Type} [Fintype ι] (P N : ι → Prop) (L U : ι → ℝ) (h : ∀ n p, N n → P p → L n ≤ U p) :
    ∃ x, (∀ n, N n → L n ≤ x) ∧ ∀ p, P p → x ≤ U p := by
  classical
  by_cases hN : (univ.filter N).Nonempty
  · refine ⟨(univ.filter N).sup' hN L, fun n hn => le_sup' L (by simp [hn]), fun p hp => ?_⟩
    refine sup'_le hN L fun n hn => h n p (by simpa using hn) hp
  · by_cases hP : (univ.filter P).Nonempty
    · refine ⟨(univ.filter P).inf' hP U, fun n hn => absurd ⟨n, by simp [hn]⟩ hN, fun p hp => inf'_le U (by simp [hp])⟩
    · exact ⟨0, fun n hn => absurd ⟨n, by simp [hn]⟩ hN, fun p hp => absurd ⟨p, by simp [hp]⟩ hP⟩

open Classical in
/-- The weights of the old rows in a row of the eliminated system. -/
noncomputable def elimW {ι : Type} (a : ι → ℝ) : ι ⊕ (ι × ι) → ι → ℝ
  | .inl i, i' => if a i = 0 then (if i' = i then 1 else 0) else 0
  | .inr (p, n), i' => if 0 < a p ∧ a n < 0 then -a n * (if i' = p then 1 else 0) + a p * (if i' = n then 1 else 0) else 0

theorem elimW_nonneg {ι : Type} (a : ι → ℝ) (c : ι ⊕ (ι × ι)) (i : ι) : 0 ≤ elimW a c i := by
  classical
  rcases c with c | ⟨p, n⟩
  · unfold elimW; dsimp only; split_ifs <;> norm_num
  · unfold elimW
    dsimp only
    split_ifs with h1 h2 h3 h3 <;> first | nlinarith [h1.1, h1.2] | norm_num

theorem elimW_inl {ι : Type} [Fintype ι] (a f : ι → ℝ) (i : ι) : ∑ i', elimW a (.inl i) i' * f i' = if a i = 0 then f i else 0 := by
  classical
  unfold elimW
  by_cases h : a i = 0
  · simp [h]
  · simp [h]

theorem elimW_inr {ι : Type} [Fintype ι] (a f : ι → ℝ) (p n : ι) :
    ∑ i', elimW a (.inr (p, n)) i' * f i' = if 0 < a p ∧ a n < 0 then -a n * f p + a p * f n else 0 := by
  classical
  unfold elimW
  by_cases h : 0 < a p ∧ a n < 0
  · simp only [if_pos h, add_mul, sum_add_distrib, mul_assoc, ite_mul, one_mul, zero_mul, mul_ite, mul_zero]
    simp
  · simp [h]

/-- Farkas' lemma: a finite system of weak linear inequalities has a solution, or a non-negative combination of its rows is contradictory. -/
theorem farkas (k : ℕ) : ∀ {ι : Type} [Fintype ι] (A : ι → Fin k → ℝ) (b : ι → ℝ),
    (∃ x : Fin k → ℝ, ∀ i, ∑ j, A i j * x j ≤ b i) ∨
      ∃ w : ι → ℝ, (∀ i, 0 ≤ w i) ∧ (∀ j, ∑ i, w i * A i j = 0) ∧ ∑ i, w i * b i < 0 := by
  induction k with
  | zero =>
    intro ι _ A b
    classical
    by_cases h : ∀ i, 0 ≤ b i
    · exact Or.inl ⟨fun _ => 0, fun i => by simpa using h i⟩
    · push Not at h
      obtain ⟨i, hi⟩ := h
      refine Or.inr ⟨fun i' => if i' = i then 1 else 0, fun i' => by dsimp only; split_ifs <;> norm_num, fun j => j.elim0, ?_⟩
      simpa using hi
  | succ k ih =>
    intro ι _ A b
    classical
    obtain ⟨a, ha⟩ : ∃ a : ι → ℝ, a = fun i => A i 0 := ⟨_, rfl⟩
    rcases ih (ι := ι ⊕ (ι × ι)) (fun c j => ∑ i, elimW a c i * A i j.succ) (fun c => ∑ i, elimW a c i * b i) with ⟨x, hx⟩ | ⟨w, h0, h1, h2⟩
    · left
      obtain ⟨f, hf⟩ : ∃ f : ι → ℝ, f = fun i => b i - ∑ j : Fin k, A i j.succ * x j := ⟨_, rfl⟩
      have key : ∀ c, 0 ≤ ∑ i, elimW a c i * f i := by
        intro c
        have h := hx c
        have e : ∑ j, (∑ i, elimW a c i * A i j.succ) * x j = ∑ i, elimW a c i * ∑ j : Fin k, A i j.succ * x j := by
          simp only [sum_mul, mul_sum]
          rw [sum_comm]
          exact sum_congr rfl fun i _ => sum_congr rfl fun j _ => by ring
        rw [e] at h
        have : ∑ i, elimW a c i * f i = ∑ i, elimW a c i * b i - ∑ i, elimW a c i * ∑ j : Fin k, A i j.succ * x j := by
          rw [hf, ← sum_sub_distrib]
          exact sum_congr rfl fun i _ => by ring
        rw [this]
        linarith
      have hz : ∀ i, a i = 0 → 0 ≤ f i := by
        intro i hi
        have := key (.inl i)
        rw [elimW_inl, if_pos hi] at this
        exact this
      obtain ⟨x0, hN, hP⟩ := exists_between_finite (fun i => 0 < a i) (fun i => a i < 0) (fun i => f i / a i) (fun i => f i / a i) (by
        intro n p hn hp
        have := key (.inr (p, n))
        rw [elimW_inr, if_pos ⟨hp, hn⟩] at this
        rw [div_le_iff_of_neg hn, div_mul_eq_mul_div, div_le_iff₀ hp]
        linarith)
      refine ⟨Fin.cons x0 x, fun i => ?_⟩
      rw [Fin.sum_univ_succ]
      simp only [Fin.cons_zero, Fin.cons_succ]
      have hfi : f i = b i - ∑ j : Fin k, A i j.succ * x j := by rw [hf]
      have hai : A i 0 = a i := by rw [ha]
      rw [hai]
      suffices a i * x0 ≤ f i by linarith
      rcases lt_trichotomy (a i) 0 with h | h | h
      · have := hN i h
        rw [div_le_iff_of_neg h] at this
        linarith
      · rw [h, zero_mul]; exact hz i h
      · have := hP i h
        rw [le_div_iff₀ h] at this
        linarith
    · right
      have comb : ∀ v : ι → ℝ, ∑ i, (∑ c, w c * elimW a c i) * v i = ∑ c, w c * ∑ i, elimW a c i * v i := by
        intro v
        simp only [sum_mul, mul_sum]
        rw [sum_comm]
        exact sum_congr rfl fun i _ => sum_congr rfl fun j _ => by ring
      refine ⟨fun i => ∑ c, w c * elimW a c i, fun i => sum_nonneg fun c _ => mul_nonneg (h0 c) (elimW_nonneg a c i), fun j => ?_, ?_⟩
      · refine Fin.cases ?_ (fun j => ?_) j
        · rw [comb fun i => A i 0]
          refine sum_eq_zero fun c _ => ?_
          have e : (fun i => A i 0) = a := ha.symm
          have e' : ∑ i, elimW a c i * A i 0 = ∑ i, elimW a c i * a i := by rw [← e]
          rw [e']
          rcases c with i | ⟨p, n⟩
          · rw [elimW_inl]; split_ifs with h
            · rw [h, mul_zero]
            · rw [mul_zero]
          · rw [elimW_inr]; split_ifs <;> ring
        · rw [comb fun i => A i j.succ]
          exact h1 j
      · rw [comb b]
        exact h2

end Verif.Honest
