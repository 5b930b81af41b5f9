import Mathlib.Data.Matrix.Mul
import Mathlib.Data.Real.StarOrdered
import Mathlib.LinearAlgebra.Matrix.DotProduct
import Mathlib.LinearAlgebra.Matrix.Notation
import Mathlib.Analysis.Matrix.Order
import Mathlib.Tactic.NormNum

/-!
# The sieve two-stage least-squares estimator (`didcont/npiv/estimators.py:331-346`)

`_ginv` is the Moore-Penrose inverse computed from a singular value decomposition (estimators.py:392-407);
it is modelled by the four Penrose conditions.  The cut-off of small singular values is not modelled: the
model is exact when no singular value lies between zero and `√ε` times the largest.
-/

set_option linter.unusedSectionVars false
set_option linter.unusedSimpArgs false

namespace Verif.Npiv.Tsls

open Matrix

variable {N J K K' : Type} [Fintype N] [Fintype J] [Fintype K] [Fintype K']

/-- `G` is the Moore-Penrose inverse of `A` (estimators.py:392-407). -/
structure IsGinv {m n : Type} [Fintype m] [Fintype n] (A : Matrix m n ℝ) (G : Matrix n m ℝ) : Prop where
  a : A * G * A = A
  g : G * A * G = G
  sa : (A * G)ᵀ = A * G
  sg : (G * A)ᵀ = G * A

/-- The projection on the instruments, `p_w` (estimators.py:333-337). -/
def proj (b : Matrix N K ℝ) (Gb : Matrix K K ℝ) : Matrix N N ℝ := b * Gb * bᵀ

/-- `design_matrix` (estimators.py:339). -/
def design (psi : Matrix N J ℝ) (b : Matrix N K ℝ) (Gb : Matrix K K ℝ) : Matrix J N ℝ := psiᵀ * proj b Gb

/-- `gram_matrix` (estimators.py:341). -/
def gram (psi : Matrix N J ℝ) (b : Matrix N K ℝ) (Gb : Matrix K K ℝ) : Matrix J J ℝ := design psi b Gb * psi

/-- The coefficients (estimators.py:342-344). -/
def beta (psi : Matrix N J ℝ) (b : Matrix N K ℝ) (Gb : Matrix K K ℝ) (G : Matrix J J ℝ) (y : N → ℝ) : J → ℝ :=
  (G * design psi b Gb) *ᵥ y

theorem mul_transpose_self_eq_zero {m n : Type} [Fintype m] [Fintype n] (M : Matrix m n ℝ) (h : M * Mᵀ = 0) :
    M = 0 := by
  have := Matrix.self_mul_conjTranspose_eq_zero (A := M)
  rw [Matrix.conjTranspose_eq_transpose_of_trivial] at this
  exact this.1 h

/-- The Moore-Penrose inverse of a Gram matrix cancels against the factor. -/
theorem gram_cancel {m n : Type} [Fintype m] [Fintype n] (X : Matrix m n ℝ) (G : Matrix n n ℝ)
    (hG : Xᵀ * X * G * (Xᵀ * X) = Xᵀ * X) : Xᵀ * X * G * Xᵀ = Xᵀ := by
  classical
  have h : (Xᵀ * X * G * Xᵀ - Xᵀ) * (Xᵀ * X * G * Xᵀ - Xᵀ)ᵀ = 0 := by
    have h1 : (Xᵀ * X * G * Xᵀ - Xᵀ) * X = 0 := by
      rw [Matrix.sub_mul, sub_eq_zero]
      simpa only [Matrix.mul_assoc] using hG
    have h2 : (Xᵀ * X * G * Xᵀ - Xᵀ)ᵀ = X * (Gᵀ * (Xᵀ * X) - 1) := by
      rw [Matrix.transpose_sub, Matrix.transpose_mul, Matrix.transpose_mul, Matrix.transpose_mul,
        Matrix.transpose_transpose, Matrix.mul_sub, Matrix.mul_one]
    rw [h2, ← Matrix.mul_assoc, h1, Matrix.zero_mul]
  exact sub_eq_zero.1 (mul_transpose_self_eq_zero _ h)

theorem gram_transpose {m n : Type} [Fintype m] [Fintype n] (X : Matrix m n ℝ) : (Xᵀ * X)ᵀ = Xᵀ * X := by
  rw [Matrix.transpose_mul, Matrix.transpose_transpose]

theorem proj_facts (b : Matrix N K ℝ) (Gb : Matrix K K ℝ) (h : IsGinv (bᵀ * b) Gb) :
    (proj b Gb)ᵀ = proj b Gb ∧ proj b Gb * proj b Gb = proj b Gb ∧ proj b Gb * b = b := by
  have h1 : bᵀ * proj b Gb = bᵀ := by
    have := gram_cancel b Gb h.a
    simpa only [proj, Matrix.mul_assoc] using this
  have h2 : bᵀ * (proj b Gb)ᵀ = bᵀ := by
    have ht : bᵀ * b * Gbᵀ * (bᵀ * b) = bᵀ * b := by
      have := congrArg Matrix.transpose h.a
      rw [Matrix.transpose_mul, Matrix.transpose_mul (bᵀ * b) Gb, gram_transpose] at this
      simpa only [Matrix.mul_assoc] using this
    have := gram_cancel b Gbᵀ ht
    have e : (proj b Gb)ᵀ = b * Gbᵀ * bᵀ := by
      simp only [proj, Matrix.transpose_mul, Matrix.transpose_transpose, Matrix.mul_assoc]
    rw [e]
    simpa only [Matrix.mul_assoc] using this
  have h3 : proj b Gb * b = b := by
    have := congrArg Matrix.transpose h2
    rwa [Matrix.transpose_mul, Matrix.transpose_transpose, Matrix.transpose_transpose] at this
  have h4 : (proj b Gb)ᵀ * proj b Gb = (proj b Gb)ᵀ := by
    have e : (proj b Gb)ᵀ = b * Gbᵀ * bᵀ := by
      simp only [proj, Matrix.transpose_mul, Matrix.transpose_transpose, Matrix.mul_assoc]
    rw [e, Matrix.mul_assoc, h1]
  have h5 : (proj b Gb)ᵀ = proj b Gb := by
    have := congrArg Matrix.transpose h4
    rw [Matrix.transpose_mul, Matrix.transpose_transpose, h4] at this
    exact this
  refine ⟨h5, ?_, h3⟩
  rw [h5] at h4
  exact h4

theorem design_eq (psi : Matrix N J ℝ) (b : Matrix N K ℝ) (Gb : Matrix K K ℝ) (h : IsGinv (bᵀ * b) Gb) :
    design psi b Gb = (proj b Gb * psi)ᵀ := by
  rw [Matrix.transpose_mul, (proj_facts b Gb h).1]
  rfl

theorem gram_eq (psi : Matrix N J ℝ) (b : Matrix N K ℝ) (Gb : Matrix K K ℝ) (h : IsGinv (bᵀ * b) Gb) :
    gram psi b Gb = (proj b Gb * psi)ᵀ * (proj b Gb * psi) := by
  rw [Matrix.transpose_mul, (proj_facts b Gb h).1, Matrix.mul_assoc, ← Matrix.mul_assoc (proj b Gb),
    (proj_facts b Gb h).2.1, ← Matrix.mul_assoc]
  rfl

/-- The Moore-Penrose inverse is unique, so the code's `_ginv` is the only matrix meant. -/
theorem ginv_unique {m n : Type} [Fintype m] [Fintype n] (A : Matrix m n ℝ) (G G' : Matrix n m ℝ)
    (h : IsGinv A G) (h' : IsGinv A G') : G = G' := by
  have e1 : A * G = A * G' := by
    calc A * G = (A * G)ᵀ := h.sa.symm
      _ = (A * G' * A * G)ᵀ := by rw [h'.a]
      _ = (A * G' * (A * G))ᵀ := by rw [Matrix.mul_assoc (A * G')]
      _ = A * G * (A * G') := by rw [Matrix.transpose_mul, h.sa, h'.sa]
      _ = A * G * A * G' := by rw [← Matrix.mul_assoc]
      _ = A * G' := by rw [h.a]
  have e2 : G * A = G' * A := by
    calc G * A = (G * A)ᵀ := h.sg.symm
      _ = (G * (A * G' * A))ᵀ := by rw [h'.a]
      _ = ((G * A) * (G' * A))ᵀ := by simp only [Matrix.mul_assoc]
      _ = (G' * A) * (G * A) := by rw [Matrix.transpose_mul, h.sg, h'.sg]
      _ = G' * (A * G * A) := by simp only [Matrix.mul_assoc]
      _ = G' * A := by rw [h.a]
  calc G = G * A * G := h.g.symm
    _ = G' * A * G := by rw [e2]
    _ = G' * (A * G) := Matrix.mul_assoc _ _ _
    _ = G' * (A * G') := by rw [e1]
    _ = G' * A * G' := (Matrix.mul_assoc _ _ _).symm
    _ = G' := h'.g

/-- C205.  The coefficients satisfy the two-stage least-squares normal equations, also when the sieve or
the instruments are collinear: the residuals are orthogonal to the projection of the sieve on the
instruments. -/
theorem C205_normal_equations (psi : Matrix N J ℝ) (b : Matrix N K ℝ) (Gb : Matrix K K ℝ) (G : Matrix J J ℝ)
    (hb : IsGinv (bᵀ * b) Gb) (hG : IsGinv (gram psi b Gb) G) (y : N → ℝ) :
    (psiᵀ * (b * Gb * bᵀ)) *ᵥ (y - psi *ᵥ beta psi b Gb G y) = 0 := by
  have hd := design_eq psi b Gb hb
  have hg := gram_eq psi b Gb hb
  have hc := gram_cancel (proj b Gb * psi) G (by rw [← hg]; exact hG.a)
  rw [← hg, ← hd] at hc
  show design psi b Gb *ᵥ (y - psi *ᵥ beta psi b Gb G y) = 0
  rw [Matrix.mulVec_sub, Matrix.mulVec_mulVec]
  change design psi b Gb *ᵥ y - gram psi b Gb *ᵥ beta psi b Gb G y = 0
  unfold beta
  rw [Matrix.mulVec_mulVec, ← Matrix.mul_assoc, hc, sub_self]

/-- C205.  An outcome that lies exactly in an identified sieve is recovered. -/
theorem C205_exact (psi : Matrix N J ℝ) (b : Matrix N K ℝ) (Gb : Matrix K K ℝ) (G : Matrix J J ℝ)
    (hb : IsGinv (bᵀ * b) Gb) (hG : IsGinv (gram psi b Gb) G)
    (hid : ∀ v, gram psi b Gb *ᵥ v = 0 → v = 0) (c : J → ℝ) :
    beta psi b Gb G (psi *ᵥ c) = c := by
  have h := C205_normal_equations psi b Gb G hb hG (psi *ᵥ c)
  rw [← Matrix.mulVec_sub, Matrix.mulVec_mulVec] at h
  have := hid _ h
  exact (sub_eq_zero.1 this).symm

/-- C205.  When the sieve lies in the span of the instruments (as in a regression, where both are built
from the same regressors), the estimator is ordinary least squares. -/
theorem C205_regression (psi : Matrix N J ℝ) (b : Matrix N K ℝ) (Gb : Matrix K K ℝ) (G : Matrix J J ℝ)
    (hb : IsGinv (bᵀ * b) Gb) (hG : IsGinv (gram psi b Gb) G) (M : Matrix K J ℝ) (hM : psi = b * M)
    (y : N → ℝ) :
    IsGinv (psiᵀ * psi) G ∧ beta psi b Gb G y = (G * psiᵀ) *ᵥ y ∧
      psiᵀ *ᵥ (y - psi *ᵥ beta psi b Gb G y) = 0 := by
  have hp : proj b Gb * psi = psi := by
    rw [hM, ← Matrix.mul_assoc, (proj_facts b Gb hb).2.2]
  have hd : design psi b Gb = psiᵀ := by rw [design_eq psi b Gb hb, hp]
  have hg : gram psi b Gb = psiᵀ * psi := by rw [gram_eq psi b Gb hb, hp]
  refine ⟨hg ▸ hG, by rw [beta, hd], ?_⟩
  have := C205_normal_equations psi b Gb G hb hG y
  change design psi b Gb *ᵥ _ = 0 at this
  rwa [hd] at this

/-- C205.  Only the space spanned by the instruments matters, not the basis chosen for it. -/
theorem C205_instrument_basis (psi : Matrix N J ℝ) (b : Matrix N K ℝ) (b' : Matrix N K' ℝ) (Gb : Matrix K K ℝ)
    (Gb' : Matrix K' K' ℝ) (G G' : Matrix J J ℝ) (hb : IsGinv (bᵀ * b) Gb) (hb' : IsGinv (b'ᵀ * b') Gb')
    (hG : IsGinv (gram psi b Gb) G) (hG' : IsGinv (gram psi b' Gb') G')
    (A : Matrix K K' ℝ) (A' : Matrix K' K ℝ) (h1 : b' = b * A) (h2 : b = b' * A') (y : N → ℝ) :
    beta psi b Gb G y = beta psi b' Gb' G' y := by
  obtain ⟨s1, _, p1⟩ := proj_facts b Gb hb
  obtain ⟨s2, _, p2⟩ := proj_facts b' Gb' hb'
  have hP : proj b Gb = proj b' Gb' := by
    have a1 : proj b Gb * proj b' Gb' = proj b' Gb' := by
      have : proj b Gb * b' = b' := by rw [h1, ← Matrix.mul_assoc, p1]
      conv_lhs => rw [show proj b' Gb' = b' * (Gb' * b'ᵀ) by rw [← Matrix.mul_assoc]; rfl]
      rw [← Matrix.mul_assoc, this, ← Matrix.mul_assoc]
      rfl
    have a2 : proj b' Gb' * proj b Gb = proj b Gb := by
      have : proj b' Gb' * b = b := by rw [h2, ← Matrix.mul_assoc, p2]
      conv_lhs => rw [show proj b Gb = b * (Gb * bᵀ) by rw [← Matrix.mul_assoc]; rfl]
      rw [← Matrix.mul_assoc, this, ← Matrix.mul_assoc]
      rfl
    have a3 := congrArg Matrix.transpose a1
    rw [Matrix.transpose_mul, s1, s2] at a3
    rw [← a2, a3]
  have hd : design psi b Gb = design psi b' Gb' := by unfold design; rw [hP]
  have hg : gram psi b Gb = gram psi b' Gb' := by unfold gram; rw [hd]
  have : G = G' := ginv_unique _ G G' hG (hg ▸ hG')
  unfold beta
  rw [hd, this]

/-- C205.  A change of basis of an identified sieve does not change the fitted values. -/
theorem C205_sieve_basis (psi : Matrix N J ℝ) [DecidableEq J] (b : Matrix N K ℝ) (Gb : Matrix K K ℝ)
    (G G' A A' : Matrix J J ℝ) (hb : IsGinv (bᵀ * b) Gb) (hG : IsGinv (gram psi b Gb) G)
    (hG' : IsGinv (gram (psi * A) b Gb) G') (hA : A * A' = 1)
    (hid : ∀ v, gram psi b Gb *ᵥ v = 0 → v = 0) (y : N → ℝ) :
    A *ᵥ beta (psi * A) b Gb G' y = beta psi b Gb G y ∧
    (psi * A) *ᵥ beta (psi * A) b Gb G' y = psi *ᵥ beta psi b Gb G y := by
  have h1 := C205_normal_equations psi b Gb G hb hG y
  have h2 := C205_normal_equations (psi * A) b Gb G' hb hG' y
  have h3 : (psiᵀ * (b * Gb * bᵀ)) *ᵥ (y - (psi * A) *ᵥ beta (psi * A) b Gb G' y) = 0 := by
    have h4 := congrArg (fun v => A'ᵀ *ᵥ v) h2
    simp only [Matrix.mulVec_mulVec, Matrix.mulVec_zero] at h4
    have : A'ᵀ * ((psi * A)ᵀ * (b * Gb * bᵀ)) = psiᵀ * (b * Gb * bᵀ) := by
      rw [Matrix.transpose_mul, ← Matrix.mul_assoc A'ᵀ, ← Matrix.mul_assoc A'ᵀ, ← Matrix.transpose_mul A A', hA,
        Matrix.transpose_one, Matrix.one_mul]
    rwa [this] at h4
  have h5 : A *ᵥ beta (psi * A) b Gb G' y = beta psi b Gb G y := by
    have h6 : gram psi b Gb *ᵥ (A *ᵥ beta (psi * A) b Gb G' y - beta psi b Gb G y) = 0 := by
      have h7 : (psiᵀ * (b * Gb * bᵀ)) *ᵥ ((y - psi *ᵥ beta psi b Gb G y) -
          (y - (psi * A) *ᵥ beta (psi * A) b Gb G' y)) = 0 := by
        rw [Matrix.mulVec_sub, h1, h3, sub_zero]
      rw [sub_sub_sub_cancel_left, ← Matrix.mulVec_mulVec _ psi A, ← Matrix.mulVec_sub, Matrix.mulVec_mulVec] at h7
      exact h7
    exact sub_eq_zero.1 (hid _ h6)
  exact ⟨h5, by rw [← Matrix.mulVec_mulVec, h5]⟩

/-! ## A concrete case -/

/-- Two observations, a constant sieve, two instruments. -/
def exPsi : Matrix (Fin 2) (Fin 1) ℝ := !![1; 1]

def exB : Matrix (Fin 2) (Fin 2) ℝ := !![1, 1; 0, 1]

noncomputable def exGb : Matrix (Fin 2) (Fin 2) ℝ := !![2, -1; -1, 1]

noncomputable def exG : Matrix (Fin 1) (Fin 1) ℝ := !![1 / 2]

theorem exB_ginv : IsGinv (exBᵀ * exB) exGb := by
  constructor <;> ext i j <;> fin_cases i <;> fin_cases j <;>
    simp [exB, exGb, Matrix.mul_apply, Fin.sum_univ_two, Matrix.transpose_apply, Matrix.vecMul, dotProduct] <;> norm_num

theorem exGram : gram exPsi exB exGb = !![2] := by
  ext i j
  fin_cases i; fin_cases j
  simp [gram, design, proj, exPsi, exB, exGb, Matrix.mul_apply, Fin.sum_univ_two, Matrix.transpose_apply, Matrix.vecMul, dotProduct]

theorem exG_ginv : IsGinv (gram exPsi exB exGb) exG := by
  rw [exGram]
  constructor <;> ext i j <;> fin_cases i <;> fin_cases j <;> simp [exG, Matrix.mul_apply]

example : beta exPsi exB exGb exG (exPsi *ᵥ ![5]) = ![5] :=
  C205_exact exPsi exB exGb exG exB_ginv exG_ginv (by
    intro v hv
    rw [exGram] at hv
    ext i
    fin_cases i
    have := congrFun hv 0
    simpa [Matrix.mulVec, dotProduct] using this) _

example : ∃ M : Matrix (Fin 2) (Fin 1) ℝ, exPsi = exB * M := by
  refine ⟨!![0; 1], ?_⟩
  ext i j
  fin_cases i <;> fin_cases j <;> simp [exPsi, exB, Matrix.mul_apply, Fin.sum_univ_two]

/-- A collinear sieve also has a Moore-Penrose inverse, so that the normal equations apply to it. -/
example : ∃ G, IsGinv (!![1, 1; 1, 1] : Matrix (Fin 2) (Fin 2) ℝ) G := by
  refine ⟨!![1 / 4, 1 / 4; 1 / 4, 1 / 4], ?_⟩
  constructor <;> ext i j <;> fin_cases i <;> fin_cases j <;>
    simp [Matrix.mul_apply, Fin.sum_univ_two, Matrix.transpose_apply, Matrix.vecMul, dotProduct] <;> norm_num

end Verif.Npiv.Tsls
