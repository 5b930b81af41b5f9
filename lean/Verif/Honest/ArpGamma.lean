import Mathlib.LinearAlgebra.Matrix.NonsingularInverse
import Mathlib.LinearAlgebra.Matrix.Notation
import Mathlib.LinearAlgebra.Matrix.Determinant.Basic
import Mathlib.Data.Real.Basic
import Mathlib.Algebra.BigOperators.Fin
import Mathlib.Tactic.Linarith
import Mathlib.Tactic.NormNum
import Mathlib.Tactic.FinCases

/-!
# The reparametrisation of `compute_arp_nuisance_ci`: model and properties of `_construct_gamma`

`q + 1` post-periods, `p` pre-periods, `R` inequalities.  Exact real arithmetic.
-/

set_option linter.unusedSectionVars false
set_option linter.unusedSimpArgs false

namespace Verif.Honest

open Finset Matrix

/-! ## Model -/

/-- `int(np.argmax(np.abs(l_flat)))`, the first position of the maximum, `arp_nuisance.py:1200`. -/
noncomputable def dropIdx {q : ℕ} (l : Fin (q + 1) → ℝ) : Fin (q + 1) :=
  open Classical in (List.finRange (q + 1)).foldl (fun b i => if |l b| < |l i| then i else b) 0

/-- The matrix filled in by `_construct_gamma`, `arp_nuisance.py:1202-1208`: row 0 is `l`, the other rows are the unit vectors of the
remaining positions in ascending order (`drop.succAbove r` is the `r`-th position different from `drop`). -/
noncomputable def gammaMat {q : ℕ} (l : Fin (q + 1) → ℝ) : Matrix (Fin (q + 1)) (Fin (q + 1)) ℝ :=
  fun r i => Fin.cases (motive := fun _ => ℝ) (l i) (fun r' => if i = (dropIdx l).succAbove r' then 1 else 0) r

/-- `_construct_gamma`, `arp_nuisance.py:1198-1213`; `none` is the `ValueError`. -/
noncomputable def constructGamma {q : ℕ} (l : Fin (q + 1) → ℝ) : Option (Matrix (Fin (q + 1)) (Fin (q + 1)) ℝ) :=
  open Classical in if |(gammaMat l).det| < 1 / 10 ^ 10 then none else some (gammaMat l)

/-- `a_matrix[:, num_pre_periods : num_pre_periods + num_post_periods] @ np.linalg.inv(gamma)`, `arp_nuisance.py:158`. -/
noncomputable def aGammaInv {p q R : ℕ} (A : Matrix (Fin R) (Fin (p + (q + 1))) ℝ) (G : Matrix (Fin (q + 1)) (Fin (q + 1)) ℝ) :
    Matrix (Fin R) (Fin (q + 1)) ℝ :=
  A.submatrix id (Fin.natAdd p) * G⁻¹

/-- `a_gamma_inv[:, 0]`, `arp_nuisance.py:160`. -/
noncomputable def aOne {p q R : ℕ} (A : Matrix (Fin R) (Fin (p + (q + 1))) ℝ) (G : Matrix (Fin (q + 1)) (Fin (q + 1)) ℝ) (i : Fin R) : ℝ :=
  aGammaInv A G i 0

/-- `a_gamma_inv[:, 1:]`, `arp_nuisance.py:161`. -/
noncomputable def xNuis {p q R : ℕ} (A : Matrix (Fin R) (Fin (p + (q + 1))) ℝ) (G : Matrix (Fin (q + 1)) (Fin (q + 1)) ℝ) :
    Matrix (Fin R) (Fin q) ℝ :=
  fun i j => aGammaInv A G i j.succ

/-- `y = a_matrix @ betahat - d_vec` and a row of `prepare_theta_grid_y_values`, `arp_nuisance.py:163,175`, `numba.py:172-180`. -/
noncomputable def yTheta {p q R : ℕ} (A : Matrix (Fin R) (Fin (p + (q + 1))) ℝ) (G : Matrix (Fin (q + 1)) (Fin (q + 1)) ℝ) (d : Fin R → ℝ)
    (beta : Fin (p + (q + 1)) → ℝ) (theta : ℝ) (i : Fin R) : ℝ :=
  (A *ᵥ beta) i - d i - aOne A G i * theta

/-! ## Lemmas -/

theorem drop_max {q : ℕ} (l : Fin (q + 1) → ℝ) (i : Fin (q + 1)) : |l i| ≤ |l (dropIdx l)| := by
  classical
  unfold dropIdx
  have key : ∀ (L : List (Fin (q + 1))) (b : Fin (q + 1)),
      |l b| ≤ |l (L.foldl (fun b i => if |l b| < |l i| then i else b) b)| ∧
        ∀ i ∈ L, |l i| ≤ |l (L.foldl (fun b i => if |l b| < |l i| then i else b) b)| := by
    intro L
    induction L with
    | nil => intro b; exact ⟨le_rfl, by simp⟩
    | cons a L ih =>
      intro b
      rw [List.foldl_cons]
      split_ifs with h
      · obtain ⟨h1, h2⟩ := ih a
        refine ⟨h.le.trans h1, fun i hi => ?_⟩
        rcases List.mem_cons.1 hi with rfl | hi
        · exact h1
        · exact h2 i hi
      · obtain ⟨h1, h2⟩ := ih b
        refine ⟨h1, fun i hi => ?_⟩
        rcases List.mem_cons.1 hi with rfl | hi
        · exact (not_lt.1 h).trans h1
        · exact h2 i hi
  convert (key (List.finRange (q + 1)) 0).2 i (List.mem_finRange i)

theorem gamma_zero {q : ℕ} (l : Fin (q + 1) → ℝ) (i : Fin (q + 1)) : gammaMat l 0 i = l i := rfl

theorem gamma_succ {q : ℕ} (l : Fin (q + 1) → ℝ) (r : Fin q) (i : Fin (q + 1)) :
    gammaMat l r.succ i = if i = (dropIdx l).succAbove r then 1 else 0 := rfl

theorem gamma_det {q : ℕ} (l : Fin (q + 1) → ℝ) : |(gammaMat l).det| = |l (dropIdx l)| := by
  rw [det_succ_row_zero, Finset.sum_eq_single (dropIdx l)]
  · have e : (gammaMat l).submatrix Fin.succ (dropIdx l).succAbove = 1 := by
      ext r c
      rw [submatrix_apply, gamma_succ, one_apply]
      simp only [Fin.succAbove_right_inj]
      simp only [eq_comm]
    rw [e, det_one, gamma_zero]
    simp [abs_mul]
  · intro j _ hj
    obtain ⟨c, hc⟩ := Fin.exists_succAbove_eq (Ne.symm hj)
    have : ((gammaMat l).submatrix Fin.succ j.succAbove).det = 0 := by
      refine det_eq_zero_of_column_eq_zero c fun r => ?_
      rw [submatrix_apply, gamma_succ, hc, if_neg (Fin.succAbove_ne _ _).symm]
    rw [this, mul_zero]
  · intro h
    exact absurd (mem_univ _) h

theorem gamma_mulVec_zero {q : ℕ} (l τ : Fin (q + 1) → ℝ) : (gammaMat l *ᵥ τ) 0 = l ⬝ᵥ τ := rfl

theorem gamma_mulVec_succ {q : ℕ} (l τ : Fin (q + 1) → ℝ) (r : Fin q) : (gammaMat l *ᵥ τ) r.succ = τ ((dropIdx l).succAbove r) := by
  rw [mulVec, dotProduct]
  simp only [gamma_succ]
  simp

theorem construct_inv {q : ℕ} (l : Fin (q + 1) → ℝ) (G : Matrix (Fin (q + 1)) (Fin (q + 1)) ℝ) (h : constructGamma l = some G) :
    G = gammaMat l ∧ IsUnit G.det := by
  classical
  unfold constructGamma at h
  split_ifs at h with h1
  cases h
  refine ⟨rfl, ?_⟩
  rw [isUnit_iff_ne_zero]
  intro h0
  rw [h0] at h1
  exact h1 (by norm_num)

/-! ## C164 -/

/-- C164.  The reparametrisation fails (with a `ValueError`) exactly if every weight is smaller than `1e-10`. -/
theorem C164_raises {q : ℕ} (l : Fin (q + 1) → ℝ) : constructGamma l = none ↔ ∀ i, |l i| < 1 / 10 ^ 10 := by
  classical
  unfold constructGamma
  rw [gamma_det]
  constructor
  · intro h i
    split_ifs at h with h1
    exact lt_of_le_of_lt (drop_max l i) h1
  · intro h
    rw [if_pos (h _)]

/-- Post-treatment effects as a change of the coefficients: nothing before, `tau` after. -/
def padPost (p : ℕ) {q : ℕ} (τ : Fin q → ℝ) : Fin (p + q) → ℝ := Fin.append 0 τ

theorem padPost_mul {p q R : ℕ} (A : Matrix (Fin R) (Fin (p + (q + 1))) ℝ) (τ : Fin (q + 1) → ℝ) :
    A *ᵥ padPost p τ = A.submatrix id (Fin.natAdd p) *ᵥ τ := by
  ext i
  rw [mulVec, mulVec, dotProduct, dotProduct, Fin.sum_univ_add]
  simp [padPost]

theorem split_mul {p q R : ℕ} (A : Matrix (Fin R) (Fin (p + (q + 1))) ℝ) (G : Matrix (Fin (q + 1)) (Fin (q + 1)) ℝ) (v : Fin (q + 1) → ℝ)
    (i : Fin R) : (aGammaInv A G *ᵥ v) i = aOne A G i * v 0 + (xNuis A G *ᵥ fun j => v j.succ) i := by
  rw [mulVec, mulVec, dotProduct, dotProduct, Fin.sum_univ_succ]
  rfl

/-- C164.  Effect of the post-treatment effects `tau` on the inequalities: through the target `l'tau` with the coefficients of the
first column, and through the remaining effects with those of the other columns. -/
theorem C164_split {p q R : ℕ} (l : Fin (q + 1) → ℝ) (G : Matrix (Fin (q + 1)) (Fin (q + 1)) ℝ) (hG : constructGamma l = some G)
    (A : Matrix (Fin R) (Fin (p + (q + 1))) ℝ) (τ : Fin (q + 1) → ℝ) (i : Fin R) :
    (A *ᵥ padPost p τ) i = aOne A G i * (l ⬝ᵥ τ) + (xNuis A G *ᵥ fun r => τ ((dropIdx l).succAbove r)) i := by
  obtain ⟨rfl, hu⟩ := construct_inv l G hG
  have e : A *ᵥ padPost p τ = aGammaInv A (gammaMat l) *ᵥ (gammaMat l *ᵥ τ) := by
    rw [mulVec_mulVec, aGammaInv, Matrix.mul_assoc, nonsing_inv_mul _ hu, Matrix.mul_one, padPost_mul]
  rw [e, split_mul, gamma_mulVec_zero]
  simp only [gamma_mulVec_succ]

/-- C164.  The hypothesis tested at `theta` (there is a nuisance vector with `y_theta <= X delta`) says: there are post-treatment
effects `tau` with `l'tau = theta` for which the violation `beta - (0, tau)` satisfies `A (beta - (0, tau)) <= d`. -/
theorem C164_null {p q R : ℕ} (l : Fin (q + 1) → ℝ) (G : Matrix (Fin (q + 1)) (Fin (q + 1)) ℝ) (hG : constructGamma l = some G)
    (A : Matrix (Fin R) (Fin (p + (q + 1))) ℝ) (d : Fin R → ℝ) (beta : Fin (p + (q + 1)) → ℝ) (theta : ℝ) (rows : Set (Fin R)) :
    (∃ delta, ∀ i ∈ rows, yTheta A G d beta theta i ≤ (xNuis A G *ᵥ delta) i) ↔
      ∃ τ, l ⬝ᵥ τ = theta ∧ ∀ i ∈ rows, (A *ᵥ (beta - padPost p τ)) i ≤ d i := by
  constructor
  · rintro ⟨delta, h⟩
    obtain ⟨hGe, hu⟩ := construct_inv l G hG
    refine ⟨G⁻¹ *ᵥ Fin.cons theta delta, ?_, fun i hi => ?_⟩
    · rw [← gamma_mulVec_zero, ← hGe, mulVec_mulVec, mul_nonsing_inv _ hu, one_mulVec]
      rfl
    · have h1 := h i hi
      have e : (A *ᵥ padPost p (G⁻¹ *ᵥ Fin.cons theta delta)) i = aOne A G i * theta + (xNuis A G *ᵥ delta) i := by
        rw [padPost_mul, mulVec_mulVec]
        exact split_mul A G _ i
      rw [mulVec_sub, Pi.sub_apply, e]
      unfold yTheta at h1
      linarith
  · rintro ⟨τ, h1, h⟩
    refine ⟨fun r => τ ((dropIdx l).succAbove r), fun i hi => ?_⟩
    have h2 := h i hi
    rw [mulVec_sub, Pi.sub_apply, C164_split l G hG, h1] at h2
    unfold yTheta
    linarith

/-- The average of two post-treatment effects, one pre-period: the code continues. -/
example : ∃ G, constructGamma ![(1 / 2 : ℝ), 1 / 2] = some G := by
  cases h : constructGamma ![(1 / 2 : ℝ), 1 / 2] with
  | some G => exact ⟨G, rfl⟩
  | none =>
    have := (C164_raises _).1 h 0
    norm_num at this

end Verif.Honest
