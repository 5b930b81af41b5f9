import Verif.Honest.ArpUnion
import Verif.Honest.GaussEx

/-!
# C232: a concrete case with two pre- and two post-periods
-/

set_option linter.unusedSectionVars false
set_option linter.unusedSimpArgs false

namespace Verif.Honest

open MeasureTheory ProbabilityTheory Finset Matrix

/-- The rows with post-period entries for the reference difference `-1` and the sign `ε`. -/
def m4 (ε : ℝ) : Fin 4 → Fin 4 → ℝ := ![![0, ε, 1, 0], ![0, ε, -1, 1], ![0, ε, -1, 0], ![0, ε, 1, -1]]

/-- The variances of the coefficients. -/
noncomputable def d4 : Fin 4 → ℝ := ![1, 1 / 2, 1 / 2, 3]

/-- The covariance matrix of the coefficients. -/
noncomputable def s4 : Matrix (Fin (2 + (1 + 1))) (Fin (2 + (1 + 1))) ℝ := Matrix.diagonal d4

/-- The covariance matrix of the moments. -/
def c4 : Matrix (Fin 4) (Fin 4) ℝ := ![![1, 0, 0, 1], ![0, 4, 1, -3], ![0, 1, 1, 0], ![1, -3, 0, 4]]

/-- The nuisance column. -/
def x4 : Matrix (Fin 4) (Fin 1) ℝ := ![![0], ![1], ![0], ![-1]]

theorem d4_nonneg (i : Fin 4) : 0 ≤ d4 i := by fin_cases i <;> norm_num [d4]

theorem sd4 : sdVec c4 0 = 1 ∧ sdVec c4 1 = 2 ∧ sdVec c4 2 = 1 ∧ sdVec c4 3 = 2 := by
  have h4 : Real.sqrt 4 = 2 := by rw [show (4 : ℝ) = 2 ^ 2 by norm_num]; exact Real.sqrt_sq (by norm_num)
  refine ⟨?_, ?_, ?_, ?_⟩ <;> simp [sdVec, c4, h4]

theorem dual4 (g : Fin 4 → ℝ) : g ∈ DualSet c4 x4 ↔ (∀ i, 0 ≤ g i) ∧ g 0 + 2 * g 1 + g 2 + 2 * g 3 = 1 ∧ g 1 = g 3 := by
  obtain ⟨h0, h1, h2, h3⟩ := sd4
  unfold DualSet
  show ((∀ i, 0 ≤ g i) ∧ _ ∧ _) ↔ _
  rw [Fin.sum_univ_four, h0, h1, h2, h3]
  have hj : (∀ j, ∑ i, x4 i j * g i = 0) ↔ g 1 = g 3 := by
    constructor
    · intro h
      have := h 0
      rw [Fin.sum_univ_four] at this
      simp [x4] at this
      linarith
    · intro h j
      fin_cases j
      rw [Fin.sum_univ_four]
      simp [x4]
      linarith
  rw [hj]
  constructor
  · rintro ⟨a, b, c⟩; exact ⟨a, by linarith, c⟩
  · rintro ⟨a, b, c⟩; exact ⟨a, by linarith, c⟩

theorem vert4 (g : Fin 4 → ℝ) (hg : g ∈ DualVertex c4 x4) : g = ![1, 0, 0, 0] ∨ g = ![0, 0, 1, 0] ∨ g = ![0, 1 / 4, 0, 1 / 4] := by
  have hD := (dual4 g).1 hg.1
  by_cases h0 : g 0 = 0
  · by_cases h2 : g 2 = 0
    · right; right
      have h1 : g 1 = 1 / 4 := by have := hD.2.1; have := hD.2.2; linarith
      funext i
      fin_cases i
      · exact h0
      · exact h1
      · exact h2
      · exact hD.2.2.symm.trans h1
    · right; left
      refine (vertex_unique _ x4 g _ hg ((dual4 _).2 ⟨fun i => by fin_cases i <;> norm_num, by simp, by simp⟩) fun i hi => ?_).symm
      fin_cases i
      · rfl
      · rfl
      · exact absurd hi h2
      · rfl
  · left
    refine (vertex_unique _ x4 g _ hg ((dual4 _).2 ⟨fun i => by fin_cases i <;> norm_num, by simp, by simp⟩) fun i hi => ?_).symm
    fin_cases i
    · exact absurd hi h0
    · rfl
    · rfl
    · rfl

/-- Any matrix with these rows gives regular moments. -/
theorem regular4 {R : ℕ} (A : Matrix (Fin R) (Fin (2 + (1 + 1))) ℝ) (rows : Fin 4 → Fin R) (ε : ℝ) (hε : ε ^ 2 = 1)
    (h : ∀ t j, A (rows t) j = m4 ε t j) : RegularLp (A * s4 * Aᵀ) (xNuis A (1 : Matrix (Fin 2) (Fin 2) ℝ)) rows := by
  have hS0 : ∀ i j, (A * s4 * Aᵀ) i j = ∑ k : Fin 4, A i k * d4 k * A j k := by
    intro i j
    rw [mul_apply]
    simp only [s4, mul_diagonal, transpose_apply]
  have hS : (A * s4 * Aᵀ).submatrix rows rows = c4 := by
    ext i j
    rw [submatrix_apply, hS0]
    simp only [h]
    rw [Fin.sum_univ_four]
    have : ε * ε = 1 := by rw [← hε]; ring
    fin_cases i <;> fin_cases j <;> simp [m4, d4, c4] <;> nlinarith
  have hX : (xNuis A (1 : Matrix (Fin 2) (Fin 2) ℝ)).submatrix rows id = x4 := by
    ext i j
    have e : aGammaInv (p := 2) A (1 : Matrix (Fin 2) (Fin 2) ℝ) = A.submatrix id (Fin.natAdd 2) := by
      rw [aGammaInv, inv_one]
      exact Matrix.mul_one _
    rw [submatrix_apply]
    unfold xNuis
    rw [e, submatrix_apply]
    fin_cases j
    rw [id, h]
    fin_cases i <;> rfl
  have hvar : ∀ g : Fin 4 → ℝ, g ⬝ᵥ (c4 *ᵥ g) = g 0 * (g 0 + g 3) + g 1 * (4 * g 1 + g 2 - 3 * g 3) + g 2 * (g 1 + g 2) +
      g 3 * (g 0 - 3 * g 1 + 4 * g 3) := by
    intro g
    simp only [mulVec, dotProduct, Fin.sum_univ_four]
    simp [c4]
    ring
  refine ⟨?_, ?_, ?_, ?_, ?_, ?_⟩
  · intro i j
    rw [hS0, hS0]
    exact sum_congr rfl fun k _ => by ring
  · intro c
    have e : c ⬝ᵥ ((A * s4 * Aᵀ) *ᵥ c) = ∑ k : Fin 4, d4 k * (c ᵥ* A) k ^ 2 := by
      rw [← mulVec_mulVec, ← mulVec_mulVec, dotProduct_mulVec, mulVec_transpose, s4]
      show ∑ k : Fin 4, _ = _
      exact sum_congr rfl fun k _ => by rw [mulVec_diagonal]; ring
    rw [e]
    exact sum_nonneg fun k _ => mul_nonneg (d4_nonneg k) (sq_nonneg _)
  · intro t
    have : (A * s4 * Aᵀ) (rows t) (rows t) = c4 t t := congrFun (congrFun hS t) t
    rw [this]
    fin_cases t <;> norm_num [c4]
  · intro g hg t
    rw [hS, hX] at hg
    rcases vert4 g hg with rfl | rfl | rfl <;> fin_cases t <;> norm_num
  · intro g hg
    rw [hS, hX] at hg
    right
    rw [hS, hvar]
    rcases vert4 g hg with rfl | rfl | rfl <;> simp <;> norm_num
  · intro g hg g' hg' hne _ _
    rw [hS, hX] at hg hg'
    rw [hS, hvar]
    rcases vert4 g hg with rfl | rfl | rfl <;> rcases vert4 g' hg' with rfl | rfl | rfl <;>
      first | exact absurd rfl hne | (simp; done) | (simp; norm_num)

/-- A row given by its entries. -/
def rowOf (l : List ℝ) (j : ℕ) : ℝ := l.getD j 0

/-- The matrix for the reference difference `-1` and the positive sign. -/
theorem mat_pos : relMat false (1 / 10 ^ 10) 2 2 1 Extra.free (-1) true =
    [rowOf [-1, 2, 0, 0], rowOf [0, 1, 1, 0], rowOf [0, 1, -1, 1], rowOf [1, 0, 0, 0], rowOf [0, 2, 0, 0], rowOf [0, 1, -1, 0],
      rowOf [0, 1, 1, -1]] := by
  have hstack : absStack (firstDiffPy 2 2) (ubRows 2 2 1 (signed true (setSlice 1 [-1, 1] fun _ => (0 : ℝ)))) =
      [rowOf [-1, 2, -1, 0, 0], rowOf [0, 0, 0, 0, 0], rowOf [0, 1, -2, 1, 0], rowOf [0, 1, -1, -1, 1], rowOf [1, 0, -1, 0, 0],
        rowOf [0, 2, -2, 0, 0], rowOf [0, 1, 0, -1, 0], rowOf [0, 1, -1, 1, -1]] := by
    simp only [absStack, firstDiffPy, ubRows, List.range_succ, List.range_zero, List.replicate, List.nil_append, List.cons_append, List.map_cons,
      List.map_nil, List.zipWith_cons_cons, List.zipWith_nil_left, List.cons.injEq, and_true]
    refine ⟨?_, ?_, ?_, ?_, ?_, ?_, ?_, ?_⟩ <;> funext j <;> rcases j with _ | _ | _ | _ | _ | j <;>
      simp [setSlice, signed, rowOf] <;> norm_num
  unfold relMat rmMatrix
  rw [if_neg (by decide)]
  have hn : (((2 : ℕ) : ℤ) + -1).toNat = 1 := by decide
  dsimp only
  rw [hn, hstack]
  have hdrop : dropZeroRows (2 + 2 + 1) (1 / 10 ^ 10 : ℝ) [rowOf [-1, 2, -1, 0, 0], rowOf [0, 0, 0, 0, 0], rowOf [0, 1, -2, 1, 0],
      rowOf [0, 1, -1, -1, 1], rowOf [1, 0, -1, 0, 0], rowOf [0, 2, -2, 0, 0], rowOf [0, 1, 0, -1, 0], rowOf [0, 1, -1, 1, -1]] =
      [rowOf [-1, 2, -1, 0, 0], rowOf [0, 1, -2, 1, 0],
      rowOf [0, 1, -1, -1, 1], rowOf [1, 0, -1, 0, 0], rowOf [0, 2, -2, 0, 0], rowOf [0, 1, 0, -1, 0], rowOf [0, 1, -1, 1, -1]] := by
    unfold dropZeroRows
    rw [List.filter_cons_of_pos, List.filter_cons_of_neg, List.filter_cons_of_pos, List.filter_cons_of_pos, List.filter_cons_of_pos,
      List.filter_cons_of_pos, List.filter_cons_of_pos, List.filter_cons_of_pos, List.filter_nil]
    all_goals rw [decide_eq_true_eq]
    · exact ⟨1, by simp, by norm_num [rowOf]⟩
    · exact ⟨1, by simp, by norm_num [rowOf]⟩
    · exact ⟨1, by simp, by norm_num [rowOf]⟩
    · exact ⟨0, by simp, by norm_num [rowOf]⟩
    · exact ⟨1, by simp, by norm_num [rowOf]⟩
    · exact ⟨1, by simp, by norm_num [rowOf]⟩
    · rintro ⟨j, _, hj⟩
      rcases j with _ | _ | _ | _ | _ | j <;> norm_num [rowOf] at hj
    · exact ⟨1, by simp, by norm_num [rowOf]⟩
  rw [hdrop]
  simp only [Extra.rows, List.append_nil, List.map_cons, List.map_nil, List.cons.injEq, and_true]
  refine ⟨?_, ?_, ?_, ?_, ?_, ?_, ?_⟩ <;> funext j <;> rcases j with _ | _ | _ | _ | j <;> simp [delCol, rowOf]

/-- The matrix for the reference difference `-1` and the negative sign. -/
theorem mat_neg : relMat false (1 / 10 ^ 10) 2 2 1 Extra.free (-1) false =
    [rowOf [-1, 0, 0, 0], rowOf [0, -2, 0, 0], rowOf [0, -1, 1, 0], rowOf [0, -1, -1, 1], rowOf [1, -2, 0, 0], rowOf [0, -1, -1, 0],
      rowOf [0, -1, 1, -1]] := by
  have hstack : absStack (firstDiffPy 2 2) (ubRows 2 2 1 (signed false (setSlice 1 [-1, 1] fun _ => (0 : ℝ)))) =
      [rowOf [-1, 0, 1, 0, 0], rowOf [0, -2, 2, 0, 0], rowOf [0, -1, 0, 1, 0], rowOf [0, -1, 1, -1, 1], rowOf [1, -2, 1, 0, 0],
        rowOf [0, 0, 0, 0, 0], rowOf [0, -1, 2, -1, 0], rowOf [0, -1, 1, 1, -1]] := by
    simp only [absStack, firstDiffPy, ubRows, List.range_succ, List.range_zero, List.replicate, List.nil_append, List.cons_append, List.map_cons,
      List.map_nil, List.zipWith_cons_cons, List.zipWith_nil_left, List.cons.injEq, and_true]
    refine ⟨?_, ?_, ?_, ?_, ?_, ?_, ?_, ?_⟩ <;> funext j <;> rcases j with _ | _ | _ | _ | _ | j <;>
      simp [setSlice, signed, rowOf] <;> norm_num
  unfold relMat rmMatrix
  rw [if_neg (by decide)]
  have hn : (((2 : ℕ) : ℤ) + -1).toNat = 1 := by decide
  dsimp only
  rw [hn, hstack]
  have hdrop : dropZeroRows (2 + 2 + 1) (1 / 10 ^ 10 : ℝ) [rowOf [-1, 0, 1, 0, 0], rowOf [0, -2, 2, 0, 0], rowOf [0, -1, 0, 1, 0],
      rowOf [0, -1, 1, -1, 1], rowOf [1, -2, 1, 0, 0], rowOf [0, 0, 0, 0, 0], rowOf [0, -1, 2, -1, 0], rowOf [0, -1, 1, 1, -1]] =
      [rowOf [-1, 0, 1, 0, 0], rowOf [0, -2, 2, 0, 0], rowOf [0, -1, 0, 1, 0], rowOf [0, -1, 1, -1, 1], rowOf [1, -2, 1, 0, 0],
        rowOf [0, -1, 2, -1, 0], rowOf [0, -1, 1, 1, -1]] := by
    unfold dropZeroRows
    rw [List.filter_cons_of_pos, List.filter_cons_of_pos, List.filter_cons_of_pos, List.filter_cons_of_pos, List.filter_cons_of_pos,
      List.filter_cons_of_neg, List.filter_cons_of_pos, List.filter_cons_of_pos, List.filter_nil]
    all_goals rw [decide_eq_true_eq]
    · exact ⟨1, by simp, by norm_num [rowOf]⟩
    · exact ⟨1, by simp, by norm_num [rowOf]⟩
    · rintro ⟨j, _, hj⟩
      rcases j with _ | _ | _ | _ | _ | j <;> norm_num [rowOf] at hj
    · exact ⟨1, by simp, by norm_num [rowOf]⟩
    · exact ⟨1, by simp, by norm_num [rowOf]⟩
    · exact ⟨1, by simp, by norm_num [rowOf]⟩
    · exact ⟨1, by simp, by norm_num [rowOf]⟩
    · exact ⟨0, by simp, by norm_num [rowOf]⟩
  rw [hdrop]
  simp only [Extra.rows, List.append_nil, List.map_cons, List.map_nil, List.cons.injEq, and_true]
  refine ⟨?_, ?_, ?_, ?_, ?_, ?_, ?_⟩ <;> funext j <;> rcases j with _ | _ | _ | _ | j <;> simp [delCol, rowOf]

theorem usesPost_row (a b c d : ℝ) : usesPost 2 2 (rowOf [a, b, c, d]) = decide (c ≠ 0 ∨ d ≠ 0) := by
  unfold usesPost
  rw [decide_eq_decide]
  constructor
  · rintro ⟨j, hj, h⟩
    rcases j with _ | _ | j
    · exact Or.inl h
    · exact Or.inr h
    · simp at hj
  · rintro (h | h)
    · exact ⟨0, by simp, h⟩
    · exact ⟨1, by simp, h⟩

/-- The rows with post-period entries. -/
theorem rows_pos : arpRows true 2 2 [rowOf [-1, 2, 0, 0], rowOf [0, 1, 1, 0], rowOf [0, 1, -1, 1], rowOf [1, 0, 0, 0], rowOf [0, 2, 0, 0],
    rowOf [0, 1, -1, 0], rowOf [0, 1, 1, -1]] = [(1 : Fin 7), 2, 5, 6] := by
  have hf : ((List.finRange 7).filter fun i : Fin 7 => usesPost 2 2 ([rowOf [-1, 2, 0, 0], rowOf [0, 1, 1, 0], rowOf [0, 1, -1, 1],
      rowOf [1, 0, 0, 0], rowOf [0, 2, 0, 0], rowOf [0, 1, -1, 0], rowOf [0, 1, 1, -1]].get i)) = [(1 : Fin 7), 2, 5, 6] := by
    rw [show List.finRange 7 = [0, 1, 2, 3, 4, 5, 6] by decide]
    simp [List.filter_cons, usesPost_row]
  unfold arpRows
  dsimp only
  erw [hf]
  rw [if_pos ⟨rfl, by simp⟩]

/-- The rows with post-period entries. -/
theorem rows_neg : arpRows true 2 2 [rowOf [-1, 0, 0, 0], rowOf [0, -2, 0, 0], rowOf [0, -1, 1, 0], rowOf [0, -1, -1, 1], rowOf [1, -2, 0, 0],
    rowOf [0, -1, -1, 0], rowOf [0, -1, 1, -1]] = [(2 : Fin 7), 3, 5, 6] := by
  have hf : ((List.finRange 7).filter fun i : Fin 7 => usesPost 2 2 ([rowOf [-1, 0, 0, 0], rowOf [0, -2, 0, 0], rowOf [0, -1, 1, 0],
      rowOf [0, -1, -1, 1], rowOf [1, -2, 0, 0], rowOf [0, -1, -1, 0], rowOf [0, -1, 1, -1]].get i)) = [(2 : Fin 7), 3, 5, 6] := by
    rw [show List.finRange 7 = [0, 1, 2, 3, 4, 5, 6] by decide]
    simp [List.filter_cons, usesPost_row]
  unfold arpRows
  dsimp only
  erw [hf]
  rw [if_pos ⟨rfl, by simp⟩]

theorem regular_of (A : List (ℕ → ℝ)) (L : List (ℕ → ℝ)) (hA : A = L) (rows : List (Fin L.length)) (hr : arpRows true 2 2 L = rows)
    (h : RegularLp (toMat (2 + (1 + 1)) L * s4 * (toMat (2 + (1 + 1)) L)ᵀ) (xNuis (toMat (2 + (1 + 1)) L) (1 : Matrix (Fin 2) (Fin 2) ℝ)) rows.get) :
    RegularLp (toMat (2 + (1 + 1)) A * s4 * (toMat (2 + (1 + 1)) A)ᵀ) (xNuis (toMat (2 + (1 + 1)) A) (1 : Matrix (Fin 2) (Fin 2) ℝ))
      (arpRows true 2 2 A).get := by
  subst hA
  rw [hr]
  exact h

/-- Both pieces give regular moments. -/
theorem regular_piece (b : Bool) : RegularLp
    (toMat (2 + (1 + 1)) (relMat false (1 / 10 ^ 10) 2 2 1 Extra.free (-1) b) * s4 *
      (toMat (2 + (1 + 1)) (relMat false (1 / 10 ^ 10) 2 2 1 Extra.free (-1) b))ᵀ)
    (xNuis (toMat (2 + (1 + 1)) (relMat false (1 / 10 ^ 10) 2 2 1 Extra.free (-1) b)) (1 : Matrix (Fin 2) (Fin 2) ℝ))
    (arpRows true 2 2 (relMat false (1 / 10 ^ 10) 2 2 1 Extra.free (-1) b)).get := by
  cases b
  · refine regular_of _ _ mat_neg _ rows_neg (regular4 _ _ (-1) (by norm_num) fun t j => ?_)
    fin_cases t <;> fin_cases j <;> simp [toMat, rowOf, m4]
  · refine regular_of _ _ mat_pos _ rows_pos (regular4 _ _ 1 (by norm_num) fun t j => ?_)
    fin_cases t <;> fin_cases j <;> simp [toMat, rowOf, m4]

/-- Independent normal coefficients with these variances. -/
theorem gaussS4 (mu : Fin (2 + (1 + 1)) → ℝ) : GaussVec (stdNormals 4) (fun z i => mu i + Real.sqrt (d4 i) * z i) mu s4 := by
  intro c
  have h := lin_law 4 (c ⬝ᵥ mu) fun i => c i * Real.sqrt (d4 i)
  have e : (fun z : Fin 4 → ℝ => c ⬝ᵥ fun i => mu i + Real.sqrt (d4 i) * z i) =
      fun z => c ⬝ᵥ mu + ∑ r, c r * Real.sqrt (d4 r) * z r := by
    funext z
    simp only [dotProduct, mul_add, sum_add_distrib, mul_assoc]
  have e2 : c ⬝ᵥ (s4 *ᵥ c) = ∑ r, (c r * Real.sqrt (d4 r)) ^ 2 := by
    rw [dotProduct]
    refine sum_congr rfl fun i _ => ?_
    rw [s4, mulVec_diagonal, mul_pow, Real.sq_sqrt (d4_nonneg i)]
    ring
  rw [e, e2]
  exact h

/-- Violations of parallel trends with a pre-trend: its largest change is the last pre-treatment change. -/
noncomputable def v4 (t : ℕ) : ℝ := [-(1 / 2 : ℝ), -1, 1, 1 / 2].getD t 0

/-- Two pre- and two post-periods, independent normal coefficients, the effect of the first post-period equal to 1: there are exact tools, and
with them the confidence set for `Mbar = 1` contains the effect with probability at least 95%, up to non-contiguous acceptance. -/
example : ∃ T : ∀ s b, Tools 1 (relMat false (1 / 10 ^ 10) 2 2 1 Extra.free s b) (arpRows true 2 2 (relMat false (1 / 10 ^ 10) 2 2 1 Extra.free s b)),
    (stdNormals 4).real {z | (∀ s ∈ Extra.free.refs 2, ∀ b, ContiguousAccept (T s b).solve (T s b).dual
        (toMat (2 + (1 + 1)) (relMat false (1 / 10 ^ 10) 2 2 1 Extra.free s b)) 1 0 s4
        (arpRows true 2 2 (relMat false (1 / 10 ^ 10) 2 2 1 Extra.free s b)).get (T s b).kind (1 / 20)
        (fun i => trueBeta 2 1 v4 ![1, 2] i + Real.sqrt (d4 i) * z i) (-2) 2 5) ∧
      ¬ ∃ flags, relCs false (1 / 10 ^ 10) 1 Extra.free true ![1, 0] T s4 (1 / 20)
        (fun i => trueBeta 2 1 v4 ![1, 2] i + Real.sqrt (d4 i) * z i) (-2) 2 5 = some flags ∧ flags[(3 : ℕ)]? = some true} ≤ 1 / 20 := by
  have : IsProbabilityMeasure (stdNormals 4) := by unfold stdNormals; infer_instance
  have hex : ∀ s b, ∃ T : Tools 1 (relMat false (1 / 10 ^ 10) 2 2 1 Extra.free s b)
      (arpRows true 2 2 (relMat false (1 / 10 ^ 10) 2 2 1 Extra.free s b)),
      T.kind = CiKind.arp ∧ (s ∈ Extra.free.refs 2 → ToolsOk (p := 2) _ _ T (1 : Matrix (Fin (1 + 1)) (Fin (1 + 1)) ℝ) s4) := by
    intro s b
    by_cases hs : s ∈ Extra.free.refs 2
    · have hs1 : s = -1 := by
        have e : Extra.free.refs 2 = [-1] := by decide
        rw [e] at hs
        simpa using hs
      subst hs1
      obtain ⟨T, hk, hT⟩ := tools_exist _ _ _ _ CiKind.arp (regular_piece b)
      exact ⟨T, hk, fun _ => hT⟩
    · exact ⟨⟨CiKind.arp, fun _ => none, fun _ _ _ => (Bnd.nan, Bnd.nan)⟩, rfl, fun h => absurd h hs⟩
  choose T hk hT using hex
  have hmax : ∀ r < 2, |D1 (full 2 v4) r| ≤ |D1 (full 2 v4) 1| := by
    intro r hr
    have : r = 0 ∨ r = 1 := by omega
    rcases this with rfl | rfl <;> norm_num [D1, full, v4]
  refine ⟨T, ?_⟩
  refine C232_rm_coverage (p := 2) (q := 1) (stdNormals 4) _ v4 ![1, 2] (1 / 10 ^ 10) (by norm_num) (by norm_num) 1 Extra.free true ![1, 0] 1 gamma3
    (le_refl 2) T s4 (1 / 20) (gaussS4 _) (fun s hs b => hT s b hs) ?_ ?_ trivial ?_ (-2) 2 5 (by norm_num) 3 (by norm_num) ?_ (by norm_num) (by norm_num)
  · intro s hs b
    rw [hk]
    trivial
  · refine ⟨1, by norm_num, hmax, fun t h1 h2 => ?_⟩
    have : t = 2 ∨ t = 3 := by omega
    rcases this with rfl | rfl <;> norm_num [D1, full, v4]
  · exact ⟨1, le_refl 1, by norm_num, hmax⟩
  · simp [dotProduct, Fin.sum_univ_two, gridAt]
    norm_num

end Verif.Honest
