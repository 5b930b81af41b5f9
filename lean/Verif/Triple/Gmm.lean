import Verif.Triple.Multi
import Verif.DR.MeanZero
import Mathlib.LinearAlgebra.Matrix.NonsingularInverse
import Mathlib.Data.Fin.VecNotation
import Mathlib.Algebra.BigOperators.Fin
import Mathlib.Algebra.Order.Ring.Rat
import Mathlib.Tactic.Linarith
import Mathlib.Tactic.FieldSimp
import Mathlib.Tactic.NormNum

/-!
# Combination of several comparison cohorts: C52 and C78
-/

set_option linter.unusedSectionVars false
set_option linter.unusedSimpArgs false

namespace Verif.Triple

open Verif.DR (mean)

variable {σ μ K : Type*} [Fintype σ] [Fintype μ] [Field K] [LinearOrder K] [IsStrictOrderedRing K]

/-- Spec: sample variance of a vector of influence values. -/
def sampleVar (f : σ → K) : K := (∑ i, (f i - mean f) ^ 2) / ((Fintype.card σ : K) - 1)

/-- Spec: influence values of the combination with weights `v`. -/
def mix (X : σ → μ → K) (v : μ → K) (i : σ) : K := ∑ a, X i a * v a

/-- Spec: `P` is the inverse of the matrix `C`. -/
def IsInverse [DecidableEq μ] (P C : μ → μ → K) : Prop := ∀ a c, ∑ b, P a b * C b c = if a = c then 1 else 0

lemma mean_mix (X : σ → μ → K) (v : μ → K) : mean (mix X v) = ∑ a, mean (fun i => X i a) * v a := by
  unfold mean mix
  rw [Finset.sum_comm, Finset.sum_div]
  exact Finset.sum_congr rfl fun a _ => by rw [← Finset.sum_mul]; ring

lemma center_mix (X : σ → μ → K) (v : μ → K) (i : σ) :
    mix X v i - mean (mix X v) = ∑ a, (X i a - mean fun j => X j a) * v a := by
  rw [mean_mix]
  unfold mix
  rw [← Finset.sum_sub_distrib]
  exact Finset.sum_congr rfl fun a _ => by ring

/-- The covariance matrix applied to weights. -/
lemma cov_apply (X : σ → μ → K) (v : μ → K) (a : μ) :
    ∑ b, cov X a b * v b =
      (∑ i, (X i a - mean fun j => X j a) * (mix X v i - mean (mix X v))) / ((Fintype.card σ : K) - 1) := by
  unfold cov
  simp only [div_mul_eq_mul_div, center_mix]
  rw [← Finset.sum_div]
  congr 1
  simp only [Finset.sum_mul, Finset.mul_sum]
  rw [Finset.sum_comm]
  exact Finset.sum_congr rfl fun i _ => Finset.sum_congr rfl fun b _ => by ring

lemma cov_form (X : σ → μ → K) (u v : μ → K) :
    ∑ a, u a * ∑ b, cov X a b * v b =
      (∑ i, (mix X u i - mean (mix X u)) * (mix X v i - mean (mix X v))) / ((Fintype.card σ : K) - 1) := by
  simp only [cov_apply, mul_div_assoc', ← Finset.sum_div]
  congr 1
  simp only [Finset.mul_sum]
  rw [Finset.sum_comm]
  refine Finset.sum_congr rfl fun i _ => ?_
  rw [center_mix X u i, Finset.sum_mul]
  exact Finset.sum_congr rfl fun a _ => by ring

lemma cov_self (X : σ → μ → K) (v : μ → K) : ∑ a, v a * ∑ b, cov X a b * v b = sampleVar (mix X v) := by
  rw [cov_form]; unfold sampleVar; simp only [sq]

lemma cov_symm (X : σ → μ → K) (a b : μ) : cov X a b = cov X b a := by
  unfold cov; congr 1; exact Finset.sum_congr rfl fun i _ => by ring

lemma sampleVar_nonneg (h2 : 2 ≤ Fintype.card σ) (f : σ → K) : 0 ≤ sampleVar f := by
  unfold sampleVar
  have : (2 : K) ≤ (Fintype.card σ : K) := by exact_mod_cast h2
  exact div_nonneg (Finset.sum_nonneg fun i _ => sq_nonneg _) (by linarith)

section
variable [DecidableEq μ]

lemma inverse_comm {P C : μ → μ → K} (h : IsInverse P C) (a c : μ) : ∑ b, C a b * P b c = if a = c then 1 else 0 := by
  have h1 : (Matrix.of P) * (Matrix.of C) = 1 := by
    ext i j
    rw [Matrix.mul_apply, Matrix.one_apply]
    exact h i j
  have h2 := mul_eq_one_comm.1 h1
  have := congrFun (congrFun h2 a) c
  rw [Matrix.mul_apply, Matrix.one_apply] at this
  exact this

/-- `C u = 1` for the row sums `u` of the inverse. -/
lemma cov_rowsum {X : σ → μ → K} {P : μ → μ → K} (h : IsInverse P (cov X)) (a : μ) :
    ∑ b, cov X a b * (∑ c, P b c) = 1 := by
  simp only [Finset.mul_sum]
  rw [Finset.sum_comm]
  simp only [inverse_comm h]
  simp

/-- The normalising sum is positive. -/
lemma total_pos [Nonempty μ] (h2 : 2 ≤ Fintype.card σ) {X : σ → μ → K} {P : μ → μ → K} (h : IsInverse P (cov X)) :
    0 < ∑ a, ∑ b, P a b := by
  have hs : ∑ a, ∑ b, P a b = sampleVar (mix X fun a => ∑ b, P a b) := by
    rw [← cov_self]
    exact Finset.sum_congr rfl fun a _ => by rw [cov_rowsum h, mul_one]
  refine lt_of_le_of_ne (hs ▸ sampleVar_nonneg h2 _) fun h0 => ?_
  rw [hs] at h0
  have hc : (2 : K) ≤ (Fintype.card σ : K) := by exact_mod_cast h2
  have hz : ∑ i, (mix X (fun a => ∑ b, P a b) i - mean (mix X fun a => ∑ b, P a b)) ^ 2 = 0 := by
    unfold sampleVar at h0
    have := h0.symm
    rw [div_eq_zero_iff] at this
    rcases this with h | h
    · exact h
    · exfalso; linarith
  have hi : ∀ i, mix X (fun a => ∑ b, P a b) i - mean (mix X fun a => ∑ b, P a b) = 0 := by
    intro i
    have := (Finset.sum_eq_zero_iff_of_nonneg fun i _ => sq_nonneg _).1 hz i (Finset.mem_univ _)
    exact pow_eq_zero_iff (two_ne_zero) |>.1 this
  obtain ⟨a⟩ := ‹Nonempty μ›
  have h1 := cov_rowsum h a
  rw [cov_apply] at h1
  simp only [hi, mul_zero, Finset.sum_const_zero, zero_div] at h1
  exact zero_ne_one h1

/-- **C52 (weights).** The combination weights sum to one. -/
theorem C52_weights_sum_one [Nonempty μ] (h2 : 2 ≤ Fintype.card σ) {X : σ → μ → K} {P : μ → μ → K}
    (h : IsInverse P (cov X)) : ∑ a, gmmW P a = 1 := by
  unfold gmmW
  rw [← Finset.sum_div, div_self (total_pos h2 h).ne']

lemma mix_form (X : σ → μ → K) {P : μ → μ → K} (h : IsInverse P (cov X)) (v : μ → K) :
    ∑ a, v a * ∑ b, cov X a b * gmmW P b = (∑ a, v a) / ∑ a, ∑ b, P a b := by
  unfold gmmW
  have : ∀ a, ∑ b, cov X a b * ((∑ c, P b c) / ∑ a, ∑ b, P a b) = 1 / ∑ a, ∑ b, P a b := by
    intro a
    rw [← cov_rowsum h a, Finset.sum_div]
    exact Finset.sum_congr rfl fun b _ => by ring
  simp only [this]
  rw [← Finset.sum_mul]; ring

lemma sampleVar_gmm [Nonempty μ] (h2 : 2 ≤ Fintype.card σ) {X : σ → μ → K} {P : μ → μ → K}
    (h : IsInverse P (cov X)) : sampleVar (mix X (gmmW P)) = 1 / ∑ a, ∑ b, P a b := by
  rw [← cov_self, mix_form X h, C52_weights_sum_one h2 h]

/-- **C52 (minimum variance).** Among all weights summing to one, the ones used give the combination whose influence
values have the smallest sample variance. -/
theorem C52_minimum_variance [Nonempty μ] (h2 : 2 ≤ Fintype.card σ) {X : σ → μ → K} {P : μ → μ → K}
    (h : IsInverse P (cov X)) (v : μ → K) (hv : ∑ a, v a = 1) :
    sampleVar (mix X (gmmW P)) ≤ sampleVar (mix X v) := by
  have hn := sampleVar_nonneg h2 (mix X fun a => v a - gmmW P a)
  rw [← cov_self] at hn
  have e : ∑ a, (v a - gmmW P a) * ∑ b, cov X a b * (v b - gmmW P b) =
      sampleVar (mix X v) - 2 * (∑ a, v a * ∑ b, cov X a b * gmmW P b) + sampleVar (mix X (gmmW P)) := by
    rw [← cov_self, ← cov_self]
    have hsym : ∑ a, gmmW P a * ∑ b, cov X a b * v b = ∑ a, v a * ∑ b, cov X a b * gmmW P b := by
      simp only [Finset.mul_sum]
      rw [Finset.sum_comm]
      exact Finset.sum_congr rfl fun a _ => Finset.sum_congr rfl fun b _ => by rw [cov_symm X b a]; ring
    have : ∑ a, (v a - gmmW P a) * ∑ b, cov X a b * (v b - gmmW P b) =
        ∑ a, v a * ∑ b, cov X a b * v b - ∑ a, v a * ∑ b, cov X a b * gmmW P b -
        ∑ a, gmmW P a * ∑ b, cov X a b * v b + ∑ a, gmmW P a * ∑ b, cov X a b * gmmW P b := by
      have hs : ∀ a, ∑ b, cov X a b * (v b - gmmW P b) = ∑ b, cov X a b * v b - ∑ b, cov X a b * gmmW P b := by
        intro a
        rw [← Finset.sum_sub_distrib]
        exact Finset.sum_congr rfl fun b _ => by ring
      simp only [hs]
      rw [← Finset.sum_sub_distrib, ← Finset.sum_sub_distrib, ← Finset.sum_add_distrib]
      exact Finset.sum_congr rfl fun a _ => by ring
    rw [this, hsym]; ring
  rw [e, mix_form X h, hv, ← sampleVar_gmm h2 h] at hn
  linarith

/-- **C52 (equal estimates).** If all comparison cohorts give the same estimate, so does the combination. -/
theorem C52_equal_estimates [Nonempty μ] (h2 : 2 ≤ Fintype.card σ) (inv : (μ → μ → K) → μ → μ → K) (X : σ → μ → K)
    (n : ℕ) (h : IsInverse (inv (cov X)) (cov X)) (c : K) : (gmm inv (fun _ => c) X n).1 = c := by
  unfold gmm
  simp only
  rw [← Finset.sum_mul, C52_weights_sum_one h2 h, one_mul]

/-- The combined estimate and influence values use the same weights. -/
theorem C52_same_weights (inv : (μ → μ → K) → μ → μ → K) (att : μ → K) (X : σ → μ → K) (n : ℕ) :
    (gmm inv att X n).1 = ∑ a, gmmW (inv (cov X)) a * att a ∧ (gmm inv att X n).2.1 = mix X (gmmW (inv (cov X))) :=
  ⟨rfl, rfl⟩

/-! ## C78: the reported standard error -/

/-- Spec: squared standard error implied by influence values of `n` units of which those outside the cell are zero:
`mean(psi^2) / n`, as used for every other cell (`ddd_mp.py:312-313`). -/
def impliedVar (n : ℕ) (f : σ → K) : K := ((∑ i, f i * f i) / (n : K)) / (n : K)

/-- **C78 (what is reported).** With several comparison cohorts the reported squared standard error is
`N² / ((N - 1) n)` times the one implied by the reported influence function, where `N` is the number of units in the
cell and `n` the number of units in the data. -/
theorem C78_gmm_se_ratio [Nonempty μ] (h2 : 2 ≤ Fintype.card σ) (inv : (μ → μ → K) → μ → μ → K) (att : μ → K)
    (X : σ → μ → K) (n : ℕ) (hn : 0 < n) (h : IsInverse (inv (cov X)) (cov X))
    (hX : ∀ a, mean (fun i => X i a) = 0) :
    (gmm inv att X n).2.2 = impliedVar n (fun i => (n : K) / (Fintype.card σ : K) * (gmm inv att X n).2.1 i) *
      ((Fintype.card σ : K) ^ 2 / (((Fintype.card σ : K) - 1) * (n : K))) := by
  have hc : (2 : K) ≤ (Fintype.card σ : K) := by exact_mod_cast h2
  have hn' : (0 : K) < n := by exact_mod_cast hn
  have hs := total_pos h2 h
  have hv := sampleVar_gmm h2 h
  have hm : mean (mix X (gmmW (inv (cov X)))) = 0 := by rw [mean_mix]; simp [hX]
  unfold sampleVar at hv
  rw [hm] at hv
  simp only [sub_zero] at hv
  have hsum : ∑ i, mix X (gmmW (inv (cov X))) i ^ 2 =
      ((Fintype.card σ : K) - 1) / ∑ a, ∑ b, inv (cov X) a b := by
    have hne : (Fintype.card σ : K) - 1 ≠ 0 := by intro h0; linarith
    rw [div_eq_iff hne] at hv
    rw [hv]; ring
  rw [(C52_same_weights inv att X n).2]
  have hse : (gmm inv att X n).2.2 = 1 / ((n : K) * ∑ a, ∑ b, inv (cov X) a b) := rfl
  rw [hse]
  unfold impliedVar
  have e : ∑ i, (n : K) / (Fintype.card σ : K) * mix X (gmmW (inv (cov X))) i *
      ((n : K) / (Fintype.card σ : K) * mix X (gmmW (inv (cov X))) i) =
      ((n : K) / (Fintype.card σ : K)) ^ 2 * (((Fintype.card σ : K) - 1) / ∑ a, ∑ b, inv (cov X) a b) := by
    rw [← hsum, Finset.mul_sum]
    exact Finset.sum_congr rfl fun i _ => by ring
  rw [e]
  set s := ∑ a, ∑ b, inv (cov X) a b
  set N := (Fintype.card σ : K)
  have hN : N ≠ 0 := by intro h0; linarith
  have hN1 : N - 1 ≠ 0 := by intro h0; linarith
  have hs' : s ≠ 0 := hs.ne'
  field_simp

/-- **C78 (violated).** Whenever the data hold more than `N² / (N - 1)` units (so, already when one sixth of the
units lie outside a cell of six), the reported standard error is strictly smaller than the implied one. -/
theorem C78_understated_violated [Nonempty μ] (h2 : 2 ≤ Fintype.card σ) (inv : (μ → μ → K) → μ → μ → K) (att : μ → K)
    (X : σ → μ → K) (n : ℕ) (h : IsInverse (inv (cov X)) (cov X)) (hX : ∀ a, mean (fun i => X i a) = 0)
    (hbig : Fintype.card σ ^ 2 < (Fintype.card σ - 1) * n) :
    (gmm inv att X n).2.2 < impliedVar n (fun i => (n : K) / (Fintype.card σ : K) * (gmm inv att X n).2.1 i) := by
  have hn : 0 < n := by
    rcases Nat.eq_zero_or_pos n with rfl | h
    · simp at hbig
    · exact h
  rw [C78_gmm_se_ratio h2 inv att X n hn h hX]
  have hc : (2 : K) ≤ (Fintype.card σ : K) := by exact_mod_cast h2
  have hn' : (0 : K) < n := by exact_mod_cast hn
  have hb : (Fintype.card σ : K) ^ 2 < ((Fintype.card σ : K) - 1) * n := by
    have : ((Fintype.card σ ^ 2 : ℕ) : K) < (((Fintype.card σ - 1) * n : ℕ) : K) := by exact_mod_cast hbig
    rw [Nat.cast_mul, Nat.cast_sub (by omega)] at this
    simpa using this
  have hd : (0 : K) < ((Fintype.card σ : K) - 1) * n := mul_pos (by linarith) hn'
  have hratio : (Fintype.card σ : K) ^ 2 / (((Fintype.card σ : K) - 1) * n) < 1 := (div_lt_one hd).2 hb
  have hpos : 0 < impliedVar n (fun i => (n : K) / (Fintype.card σ : K) * (gmm inv att X n).2.1 i) := by
    have hr := C78_gmm_se_ratio h2 inv att X n hn h hX
    have hse : 0 < (gmm inv att X n).2.2 := by
      show 0 < 1 / ((n : K) * ∑ a, ∑ b, inv (cov X) a b)
      exact one_div_pos.2 (mul_pos hn' (total_pos h2 h))
    rw [hr] at hse
    have hq : 0 < (Fintype.card σ : K) ^ 2 / (((Fintype.card σ : K) - 1) * n) := div_pos (by positivity) hd
    exact pos_of_mul_pos_left hse hq.le
  nlinarith

end

/-! Non-vacuity: two comparison cohorts, six units in the cell, twelve in the data. -/

def exX : Fin 6 → Fin 2 → ℚ := ![![2, 1], ![-1, 0], ![-1, -1], ![3, 0], ![-3, 2], ![0, -2]]

/-- `np.linalg.inv` of the example's covariance matrix `[[24/5, -4/5], [-4/5, 2]]`. -/
def gmmInv (C : Fin 2 → Fin 2 → ℚ) (a b : Fin 2) : ℚ :=
  let det := C 0 0 * C 1 1 - C 0 1 * C 1 0
  (if a = b then (if a = 0 then C 1 1 else C 0 0) else - C a b) / det

lemma gmmInverse : IsInverse (gmmInv (cov exX)) (cov exX) := by
  intro a c; revert a c; decide +kernel

lemma exMeans : ∀ a, mean (fun i => exX i a) = 0 := by decide +kernel

example : ∑ a, gmmW (gmmInv (cov exX)) a = 1 ∧ gmmW (gmmInv (cov exX)) 0 ≠ gmmW (gmmInv (cov exX)) 1 ∧
    (gmm gmmInv (fun _ => 7) exX 12).1 = 7 ∧ sampleVar (mix exX (gmmW (gmmInv (cov exX)))) < sampleVar (mix exX ![1, 0]) :=
  ⟨C52_weights_sum_one (by decide) gmmInverse, by decide +kernel, C52_equal_estimates (by decide) gmmInv exX 12 gmmInverse 7,
    by decide +kernel⟩

example : sampleVar (mix exX (gmmW (gmmInv (cov exX)))) ≤ sampleVar (mix exX ![1/3, 2/3]) :=
  C52_minimum_variance (by decide) gmmInverse _ (by decide +kernel)

example : (gmm gmmInv ![3, 4] exX 12).2.2 <
    impliedVar 12 (fun i => (12 : ℚ) / (Fintype.card (Fin 6) : ℚ) * (gmm gmmInv ![3, 4] exX 12).2.1 i) :=
  C78_understated_violated (by decide) gmmInv _ exX 12 gmmInverse exMeans (by decide)

end Verif.Triple
