import Verif.Npiv.SelectThm
import Mathlib.Data.Matrix.Mul
import Mathlib.LinearAlgebra.Matrix.Notation
import Mathlib.MeasureTheory.Integral.Bochner.Basic
import Mathlib.Algebra.Order.BigOperators.Group.Finset

/-!
# Standard errors, multiplier bootstrap and uniform bands of the sieve estimator

`didcont/npiv/estimators.py`, `lepski.py`, `confidence_bands.py`, `cck_ucb.py`.  A fit is given by its
basis matrices and by `tmp`, the matrix that maps outcomes to coefficients; both do not depend on the
outcome.
-/

set_option linter.unusedSectionVars false
set_option linter.unusedSimpArgs false

namespace Verif.Npiv.Sel

open Matrix MeasureTheory

variable {N E J J' : Type} [Fintype N] [Fintype E] [Fintype J] [Fintype J'] [Nonempty E]

/-- A sieve fit: the basis at the data, the basis (or its derivative) at the evaluation points, and the
matrix from outcomes to coefficients (estimators.py:113-140, 353). -/
structure Fit (N E J : Type) where
  psi : Matrix N J ℝ
  psiEval : Matrix E J ℝ
  tmp : Matrix J N ℝ

/-- Estimates at the evaluation points (estimators.py:344, 168-169). -/
noncomputable def Fit.h (F : Fit N E J) (y : N → ℝ) : E → ℝ := F.psiEval *ᵥ (F.tmp *ᵥ y)

/-- Residuals (estimators.py:170). -/
noncomputable def Fit.u (F : Fit N E J) (y : N → ℝ) : N → ℝ := y - F.psi *ᵥ (F.tmp *ᵥ y)

/-- `tmp.T * residuals[:, None]` (estimators.py:355, lepski.py:487, 491). -/
noncomputable def Fit.wt (F : Fit N E J) (y : N → ℝ) : Matrix N J ℝ := Matrix.of fun i j => F.tmp j i * F.u y i

/-- The asymptotic variance at an evaluation point (estimators.py:356-359, lepski.py:488-489). -/
noncomputable def Fit.var (F : Fit N E J) (y : N → ℝ) (e : E) : ℝ :=
  (F.psiEval * ((F.wt y)ᵀ * F.wt y) * F.psiEvalᵀ) e e

/-- The asymptotic standard error (estimators.py:359, 362). -/
noncomputable def Fit.se (F : Fit N E J) (y : N → ℝ) (e : E) : ℝ := Real.sqrt |F.var y e|

/-- The covariance of two fits (lepski.py:496). -/
noncomputable def covar (F : Fit N E J) (G : Fit N E J') (y : N → ℝ) (e : E) : ℝ :=
  (F.psiEval * ((F.wt y)ᵀ * G.wt y) * G.psiEvalᵀ) e e

/-- The variance of the difference of two fits (lepski.py:498). -/
noncomputable def varDiff (F : Fit N E J) (G : Fit N E J') (y : N → ℝ) (e : E) : ℝ :=
  F.var y e + G.var y e - 2 * covar F G y e

/-- Its square root (lepski.py:499). -/
noncomputable def seDiff (F : Fit N E J) (G : Fit N E J') (y : N → ℝ) (e : E) : ℝ :=
  Real.sqrt (max (varDiff F G y e) 0)

/-- Machine epsilon (didcont/utils.py:116). -/
noncomputable def eps : ℝ := 2 ^ (-52 : ℤ)

/-- `np.max(np.abs(d) / avoid_zero_division(se))` for standard errors, which are not negative
(lepski.py:503, 519; confidence_bands.py:197-198; didcont/utils.py:119). -/
noncomputable def supT (d se : E → ℝ) : ℝ :=
  Finset.univ.sup' Finset.univ_nonempty (fun e => |d e| / max (se e) eps)

/-- The statistic comparing two fits (lepski.py:502-503). -/
noncomputable def zStat (F : Fit N E J) (G : Fit N E J') (y : N → ℝ) : ℝ :=
  supT (fun e => F.h y e - G.h y e) (seDiff F G y)

/-- A multiplier draw of an estimate (confidence_bands.py:196, lepski.py:515-516). -/
noncomputable def Fit.boot (F : Fit N E J) (y ξ : N → ℝ) : E → ℝ :=
  F.psiEval *ᵥ (F.tmp *ᵥ (fun i => F.u y i * ξ i))

/-- The bootstrap statistic of the comparison (lepski.py:514-519). -/
noncomputable def zBoot (F : Fit N E J) (G : Fit N E J') (y ξ : N → ℝ) : ℝ :=
  supT (fun e => F.boot y ξ e - G.boot y ξ e) (seDiff F G y)

/-- The bootstrap statistic of the band (confidence_bands.py:196-198). -/
noncomputable def bStat (F : Fit N E J) (y ξ : N → ℝ) : ℝ := supT (F.boot y ξ) (F.se y)

/-- The critical value of the band (confidence_bands.py:215-218, with all statistics finite). -/
noncomputable def cvBand (F : Fit N E J) (y : N → ℝ) (ξ : List (N → ℝ)) (α : ℝ) : Option ℝ :=
  quantLower (ξ.map (bStat F y)) (1 - α)

open Classical in
/-- The half width of the band (confidence_bands.py:235-239). -/
noncomputable def margin (F : Fit N E J) (y : N → ℝ) (cv : ℝ) (e : E) : ℝ :=
  if ∀ e, 0 < F.se y e then cv * F.se y e else cv * 1

/-- The band (confidence_bands.py:234-242). -/
noncomputable def band (F : Fit N E J) (y : N → ℝ) (ξ : List (N → ℝ)) (α : ℝ) (e : E) : Option (ℝ × ℝ) :=
  (cvBand F y ξ α).map (fun cv => (F.h y e - margin F y cv e, F.h y e + margin F y cv e))

/-! ## The variance formulas -/

/-- The influence of observation `i` on the estimate at `e`. -/
noncomputable def Fit.inf (F : Fit N E J) (y : N → ℝ) (e : E) (i : N) : ℝ := (F.psiEval * F.tmp) e i * F.u y i

theorem sandwich (F : Fit N E J) (G : Fit N E J') (y : N → ℝ) (e : E) :
    (F.psiEval * ((F.wt y)ᵀ * G.wt y) * G.psiEvalᵀ) e e = ∑ i, F.inf y e i * G.inf y e i := by
  have h1 : F.psiEval * ((F.wt y)ᵀ * G.wt y) * G.psiEvalᵀ =
      (F.psiEval * (F.wt y)ᵀ) * (G.psiEval * (G.wt y)ᵀ)ᵀ := by
    rw [Matrix.transpose_mul, Matrix.transpose_transpose]
    simp only [Matrix.mul_assoc]
  have hF : ∀ (e : E) (i : N), (F.psiEval * (F.wt y)ᵀ) e i = F.inf y e i := by
    intro e i
    simp only [Matrix.mul_apply, Matrix.transpose_apply, Fit.wt, Matrix.of_apply, Fit.inf, Finset.sum_mul]
    exact Finset.sum_congr rfl (fun j _ => by ring)
  have hG : ∀ (e : E) (i : N), (G.psiEval * (G.wt y)ᵀ) e i = G.inf y e i := by
    intro e i
    simp only [Matrix.mul_apply, Matrix.transpose_apply, Fit.wt, Matrix.of_apply, Fit.inf, Finset.sum_mul]
    exact Finset.sum_congr rfl (fun j _ => by ring)
  rw [h1, Matrix.mul_apply]
  exact Finset.sum_congr rfl (fun i _ => by rw [Matrix.transpose_apply, hF, hG])

theorem boot_eq (F : Fit N E J) (y ξ : N → ℝ) (e : E) : F.boot y ξ e = ∑ i, F.inf y e i * ξ i := by
  unfold Fit.boot
  rw [Matrix.mulVec_mulVec]
  simp only [Matrix.mulVec, dotProduct, Fit.inf]
  exact Finset.sum_congr rfl (fun i _ => by ring)

/-- C203.  The variance of the difference of two fits is the sum of the squared differences of the
influences of the observations: it is never negative, so that the truncation at zero is never active. -/
theorem C203_variance (F : Fit N E J) (G : Fit N E J') (y : N → ℝ) (e : E) :
    varDiff F G y e = ∑ i, (F.inf y e i - G.inf y e i) ^ 2 ∧ 0 ≤ varDiff F G y e ∧
      seDiff F G y e ^ 2 = varDiff F G y e := by
  have h : varDiff F G y e = ∑ i, (F.inf y e i - G.inf y e i) ^ 2 := by
    unfold varDiff Fit.var covar
    rw [sandwich F F, sandwich G G, sandwich F G, Finset.mul_sum, ← Finset.sum_add_distrib,
      ← Finset.sum_sub_distrib]
    exact Finset.sum_congr rfl (fun i _ => by ring)
  have h0 : 0 ≤ varDiff F G y e := h ▸ Finset.sum_nonneg (fun i _ => sq_nonneg _)
  refine ⟨h, h0, ?_⟩
  unfold seDiff
  rw [Real.sq_sqrt (le_max_right _ _), max_eq_left h0]

theorem second_moment {Ω : Type} [MeasurableSpace Ω] (μ : Measure Ω) (ξ : Ω → N → ℝ)
    (hint : ∀ i j, Integrable (fun ω => ξ ω i * ξ ω j) μ)
    (hcov : ∀ i, ∫ ω, ξ ω i * ξ ω i ∂μ = 1) (hunc : ∀ i j, i ≠ j → ∫ ω, ξ ω i * ξ ω j ∂μ = 0) (c : N → ℝ) :
    ∫ ω, (∑ i, c i * ξ ω i) ^ 2 ∂μ = ∑ i, c i ^ 2 := by
  classical
  have h1 : ∀ ω, (∑ i, c i * ξ ω i) ^ 2 = ∑ i, ∑ j, c i * c j * (ξ ω i * ξ ω j) := by
    intro ω
    rw [sq, Finset.sum_mul_sum]
    exact Finset.sum_congr rfl (fun i _ => Finset.sum_congr rfl (fun j _ => by ring))
  rw [funext h1, integral_finsetSum _ (fun i _ => integrable_finsetSum _ (fun j _ => (hint i j).const_mul _))]
  refine Finset.sum_congr rfl (fun i _ => ?_)
  rw [integral_finsetSum _ (fun j _ => (hint i j).const_mul _)]
  rw [Finset.sum_eq_single i]
  · rw [integral_const_mul, hcov]; ring
  · intro j _ hj
    rw [integral_const_mul, hunc i j (Ne.symm hj), mul_zero]
  · intro h; exact absurd (Finset.mem_univ i) h

/-- C203.  Under any law of the multipliers with unit variances and no correlation (normal draws in the
code), the second moment of the bootstrap difference is the variance that studentizes it; likewise for
a single fit. -/
theorem C203_bootstrap {Ω : Type} [MeasurableSpace Ω] (μ : Measure Ω) (ξ : Ω → N → ℝ)
    (hint : ∀ i j, Integrable (fun ω => ξ ω i * ξ ω j) μ)
    (hcov : ∀ i, ∫ ω, ξ ω i * ξ ω i ∂μ = 1) (hunc : ∀ i j, i ≠ j → ∫ ω, ξ ω i * ξ ω j ∂μ = 0)
    (F : Fit N E J) (G : Fit N E J') (y : N → ℝ) (e : E) :
    ∫ ω, (F.boot y (ξ ω) e - G.boot y (ξ ω) e) ^ 2 ∂μ = seDiff F G y e ^ 2 ∧
    ∫ ω, F.boot y (ξ ω) e ^ 2 ∂μ = F.se y e ^ 2 := by
  constructor
  · rw [(C203_variance F G y e).2.2, (C203_variance F G y e).1, ← second_moment μ ξ hint hcov hunc]
    congr 1
    funext ω
    rw [boot_eq, boot_eq, ← Finset.sum_sub_distrib]
    congr 1
    exact Finset.sum_congr rfl (fun i _ => by ring)
  · unfold Fit.se
    rw [Real.sq_sqrt (abs_nonneg _)]
    have hv : F.var y e = ∑ i, F.inf y e i ^ 2 := by
      unfold Fit.var
      rw [sandwich F F]
      exact Finset.sum_congr rfl (fun i _ => by ring)
    rw [hv, abs_of_nonneg (Finset.sum_nonneg (fun i _ => sq_nonneg _)), ← second_moment μ ξ hint hcov hunc]
    congr 1
    funext ω
    rw [boot_eq]

/-! ## Units of the outcome -/

theorem h_smul (F : Fit N E J) (c : ℝ) (y : N → ℝ) (e : E) : F.h (c • y) e = c * F.h y e := by
  unfold Fit.h
  rw [Matrix.mulVec_smul, Matrix.mulVec_smul]
  rfl

theorem u_smul (F : Fit N E J) (c : ℝ) (y : N → ℝ) (i : N) : F.u (c • y) i = c * F.u y i := by
  unfold Fit.u
  rw [Matrix.mulVec_smul, Matrix.mulVec_smul]
  simp only [Pi.sub_apply, Pi.smul_apply, smul_eq_mul]
  ring

theorem inf_smul (F : Fit N E J) (c : ℝ) (y : N → ℝ) (e : E) (i : N) :
    F.inf (c • y) e i = c * F.inf y e i := by
  unfold Fit.inf
  rw [u_smul]; ring

theorem var_eq (F : Fit N E J) (y : N → ℝ) (e : E) : F.var y e = ∑ i, F.inf y e i ^ 2 := by
  unfold Fit.var
  rw [sandwich F F]
  exact Finset.sum_congr rfl (fun i _ => by ring)

theorem se_smul (F : Fit N E J) (c : ℝ) (y : N → ℝ) (e : E) : F.se (c • y) e = |c| * F.se y e := by
  unfold Fit.se
  have : F.var (c • y) e = c ^ 2 * F.var y e := by
    rw [var_eq, var_eq, Finset.mul_sum]
    exact Finset.sum_congr rfl (fun i _ => by rw [inf_smul]; ring)
  rw [this, abs_mul, abs_of_nonneg (sq_nonneg c), Real.sqrt_mul (sq_nonneg c), Real.sqrt_sq_eq_abs]

theorem seDiff_smul (F : Fit N E J) (G : Fit N E J') (c : ℝ) (y : N → ℝ) (e : E) :
    seDiff F G (c • y) e = |c| * seDiff F G y e := by
  unfold seDiff
  have : varDiff F G (c • y) e = c ^ 2 * varDiff F G y e := by
    rw [(C203_variance F G _ e).1, (C203_variance F G y e).1, Finset.mul_sum]
    exact Finset.sum_congr rfl (fun i _ => by rw [inf_smul, inf_smul]; ring)
  rw [this, max_eq_left (mul_nonneg (sq_nonneg c) (C203_variance F G y e).2.1),
    max_eq_left (C203_variance F G y e).2.1, Real.sqrt_mul (sq_nonneg c), Real.sqrt_sq_eq_abs]

theorem boot_smul (F : Fit N E J) (c : ℝ) (y ξ : N → ℝ) (e : E) : F.boot (c • y) ξ e = c * F.boot y ξ e := by
  rw [boot_eq, boot_eq, Finset.mul_sum]
  exact Finset.sum_congr rfl (fun i _ => by rw [inf_smul]; ring)

theorem eps_pos : 0 < eps := by unfold eps; positivity

theorem supT_scale (d d' se se' : E → ℝ) (c : ℝ) (hc : c ≠ 0) (hd : ∀ e, d' e = c * d e)
    (hse : ∀ e, se' e = |c| * se e) (h : ∀ e, d e = 0 ∨ (eps ≤ se e ∧ eps ≤ |c| * se e)) :
    supT d' se' = supT d se := by
  unfold supT
  refine Finset.sup'_congr _ rfl (fun e _ => ?_)
  rw [hd, hse]
  rcases h e with h | ⟨h1, h2⟩
  · rw [h]; simp
  · rw [max_eq_left h1, max_eq_left h2, abs_mul, mul_div_mul_left _ _ (abs_ne_zero.2 hc)]

/-- C203.  Changing the units of the outcome (by a factor that keeps the standard errors above machine
epsilon) changes neither the statistic of a comparison nor its bootstrap draws, and hence not the
choice. -/
theorem C203_units (F : Fit N E J) (G : Fit N E J') (y ξ : N → ℝ) (c : ℝ) (hc : c ≠ 0)
    (h : ∀ e, eps ≤ seDiff F G y e ∧ eps ≤ |c| * seDiff F G y e) :
    zStat F G (c • y) = zStat F G y ∧ zBoot F G (c • y) ξ = zBoot F G y ξ := by
  constructor
  · exact supT_scale _ _ _ _ c hc (fun e => by rw [h_smul, h_smul]; ring) (seDiff_smul F G c y)
      (fun e => Or.inr (h e))
  · exact supT_scale _ _ _ _ c hc (fun e => by rw [boot_smul, boot_smul]; ring) (seDiff_smul F G c y)
      (fun e => Or.inr (h e))

/-! ## The band -/

theorem quantLower_count {α : Type} [LinearOrder α] (l : List α) (q : ℝ) (v : α) (h : quantLower l q = some v) :
    ⌊q * ((l.length : ℝ) - 1)⌋₊ + 1 ≤ l.countP (fun x => decide (x ≤ v)) := by
  obtain ⟨k, hk⟩ : ∃ k, k = ⌊q * ((l.length : ℝ) - 1)⌋₊ := ⟨_, rfl⟩
  unfold quantLower at h
  rw [← hk] at h ⊢
  obtain ⟨s, hs⟩ : ∃ s, s = l.insertionSort (· ≤ ·) := ⟨_, rfl⟩
  rw [← hs] at h
  have hperm : s.Perm l := hs ▸ List.perm_insertionSort _ l
  have hsort : s.Pairwise (· ≤ ·) := hs ▸ List.pairwise_insertionSort _ l
  obtain ⟨hlt, hv⟩ := List.getElem?_eq_some_iff.1 h
  rw [← hperm.countP_eq]
  have h1 : (s.take (k + 1)).countP (fun x => decide (x ≤ v)) = (s.take (k + 1)).length := by
    rw [List.countP_eq_length]
    intro x hx
    obtain ⟨i, hi, rfl⟩ := List.mem_iff_getElem.1 hx
    rw [List.length_take] at hi
    rw [List.getElem_take, decide_eq_true_eq, ← hv]
    rcases Nat.lt_or_eq_of_le (show i ≤ k by omega) with h2 | h2
    · exact List.pairwise_iff_getElem.1 hsort i k (by omega) hlt h2
    · subst h2; exact le_rfl
  rw [List.length_take] at h1
  have h2 : (s.take (k + 1)).countP (fun x => decide (x ≤ v)) ≤ s.countP (fun x => decide (x ≤ v)) :=
    (List.take_sublist _ _).countP_le
  omega

theorem quantLower_count_nodup {α : Type} [LinearOrder α] (l : List α) (hl : l.Nodup) (q : ℝ) (v : α)
    (h : quantLower l q = some v) :
    l.countP (fun x => decide (x ≤ v)) = ⌊q * ((l.length : ℝ) - 1)⌋₊ + 1 := by
  apply le_antisymm _ (quantLower_count l q v h)
  obtain ⟨k, hk⟩ : ∃ k, k = ⌊q * ((l.length : ℝ) - 1)⌋₊ := ⟨_, rfl⟩
  unfold quantLower at h
  rw [← hk] at h ⊢
  obtain ⟨s, hs⟩ : ∃ s, s = l.insertionSort (· ≤ ·) := ⟨_, rfl⟩
  rw [← hs] at h
  have hperm : s.Perm l := hs ▸ List.perm_insertionSort _ l
  have hsort : s.Pairwise (· ≤ ·) := hs ▸ List.pairwise_insertionSort _ l
  have hnd : s.Nodup := hperm.nodup_iff.2 hl
  obtain ⟨hlt, hv⟩ := List.getElem?_eq_some_iff.1 h
  rw [← hperm.countP_eq, ← List.take_append_drop (k + 1) s, List.countP_append]
  have h1 : (s.drop (k + 1)).countP (fun x => decide (x ≤ v)) = 0 := by
    rw [List.countP_eq_zero]
    intro x hx
    obtain ⟨i, hi, rfl⟩ := List.mem_iff_getElem.1 hx
    rw [List.length_drop] at hi
    rw [List.getElem_drop, decide_eq_true_eq, not_le, ← hv]
    have hle := List.pairwise_iff_getElem.1 hsort k (k + 1 + i) hlt (by omega) (by omega)
    have hne := List.pairwise_iff_getElem.1 hnd k (k + 1 + i) hlt (by omega) (by omega)
    exact lt_of_le_of_ne hle hne
  have h2 := (List.countP_le_length (p := fun x => decide (x ≤ v)) (l := s.take (k + 1)))
  rw [List.length_take] at h2
  omega

theorem supT_nonneg (d se : E → ℝ) : 0 ≤ supT d se := by
  unfold supT
  obtain ⟨e⟩ := ‹Nonempty E›
  refine le_trans ?_ (Finset.le_sup' (fun e => |d e| / max (se e) eps) (Finset.mem_univ e))
  exact div_nonneg (abs_nonneg _) (le_trans eps_pos.le (le_max_right _ _))

theorem supT_le (d se : E → ℝ) (c : ℝ) (hse : ∀ e, eps ≤ se e) :
    supT d se ≤ c ↔ ∀ e, |d e| ≤ c * se e := by
  unfold supT
  rw [Finset.sup'_le_iff]
  constructor
  · intro h e
    have := h e (Finset.mem_univ e)
    rwa [max_eq_left (hse e), div_le_iff₀ (lt_of_lt_of_le eps_pos (hse e))] at this
  · intro h e _
    rw [max_eq_left (hse e), div_le_iff₀ (lt_of_lt_of_le eps_pos (hse e))]
    exact h e

/-- C204.  The band is centred at the estimate and contains it at every evaluation point. -/
theorem C204_centred (F : Fit N E J) (y : N → ℝ) (ξ : List (N → ℝ)) (α : ℝ) (hα0 : 0 < α) (hα1 : α < 1)
    (hξ : ξ ≠ []) (e : E) :
    ∃ lo up, band F y ξ α e = some (lo, up) ∧ lo ≤ F.h y e ∧ F.h y e ≤ up ∧ (lo + up) / 2 = F.h y e := by
  obtain ⟨cv, hcv, hm⟩ := quantLower_isSome (ξ.map (bStat F y)) (1 - α) (by simpa using hξ) (by linarith)
    (by linarith)
  have h0 : 0 ≤ cv := by
    obtain ⟨x, _, rfl⟩ := List.mem_map.1 hm
    exact supT_nonneg _ _
  have hmg : 0 ≤ margin F y cv e := by
    unfold margin
    split_ifs with h
    · exact mul_nonneg h0 (h e).le
    · simpa using h0
  have hb : band F y ξ α e = some (F.h y e - margin F y cv e, F.h y e + margin F y cv e) := by
    unfold band cvBand
    rw [hcv]
    rfl
  exact ⟨_, _, hb, by linarith, by linarith, by ring⟩

/-- C204.  The number of multiplier draws that stay inside the band at all evaluation points at once is
at least `⌊(1 - α) (B - 1)⌋ + 1`, and exactly that when the statistics of the draws are distinct. -/
theorem C204_calibration (F : Fit N E J) (y : N → ℝ) (ξ : List (N → ℝ)) (α cv : ℝ)
    (hcv : cvBand F y ξ α = some cv) (hse : ∀ e, eps ≤ F.se y e) :
    ⌊(1 - α) * ((ξ.length : ℝ) - 1)⌋₊ + 1 ≤
      ξ.countP (fun x => decide (∀ e, |F.boot y x e| ≤ margin F y cv e)) ∧
    ((ξ.map (bStat F y)).Nodup →
      ξ.countP (fun x => decide (∀ e, |F.boot y x e| ≤ margin F y cv e)) =
        ⌊(1 - α) * ((ξ.length : ℝ) - 1)⌋₊ + 1) := by
  have hpos : ∀ e, 0 < F.se y e := fun e => lt_of_lt_of_le eps_pos (hse e)
  have heq : ξ.countP (fun x => decide (∀ e, |F.boot y x e| ≤ margin F y cv e)) =
      (ξ.map (bStat F y)).countP (fun s => decide (s ≤ cv)) := by
    rw [List.countP_map]
    congr 1
    funext x
    simp only [Function.comp_apply, decide_eq_decide]
    rw [bStat, supT_le _ _ _ hse]
    refine forall_congr' (fun e => ?_)
    unfold margin
    rw [if_pos hpos]
  have hlen : (ξ.map (bStat F y)).length = ξ.length := List.length_map _
  rw [heq]
  unfold cvBand at hcv
  refine ⟨?_, fun hnd => ?_⟩
  · have := quantLower_count _ _ _ hcv
    rwa [hlen] at this
  · have := quantLower_count_nodup _ hnd _ _ hcv
    rwa [hlen] at this

/-- C204 violated.  With the default 99 draws and `alpha = 0.05`, and no ties, only 94 of the 99 draws
stay inside the band: fewer than the fraction `1 - alpha`. -/
theorem C204_default_violated (F : Fit N E J) (y : N → ℝ) (ξ : List (N → ℝ)) (cv : ℝ) (hB : ξ.length = 99)
    (hcv : cvBand F y ξ (5 / 100) = some cv) (hse : ∀ e, eps ≤ F.se y e) (hnd : (ξ.map (bStat F y)).Nodup) :
    (ξ.countP (fun x => decide (∀ e, |F.boot y x e| ≤ margin F y cv e)) : ℝ) < (1 - 5 / 100) * ξ.length := by
  rw [(C204_calibration F y ξ (5 / 100) cv hcv hse).2 hnd, hB]
  have : ⌊(1 - 5 / 100 : ℝ) * (((99 : ℕ) : ℝ) - 1)⌋₊ = 93 := by
    rw [Nat.floor_eq_iff (by norm_num)]
    norm_num
  rw [this]
  norm_num

theorem boot_zero_of_se (F : Fit N E J) (y ξ : N → ℝ) (e : E) (h : F.se y e = 0) : F.boot y ξ e = 0 := by
  unfold Fit.se at h
  rw [Real.sqrt_eq_zero (abs_nonneg _), abs_eq_zero, var_eq] at h
  have h0 := (Finset.sum_eq_zero_iff_of_nonneg (fun i _ => sq_nonneg (F.inf y e i))).1 h
  rw [boot_eq]
  refine Finset.sum_eq_zero (fun i hi => ?_)
  rw [pow_eq_zero_iff (by norm_num) |>.1 (h0 i hi), zero_mul]

/-- C204.  When no standard error vanishes, the band follows the units of the outcome. -/
theorem C204_units (F : Fit N E J) (y : N → ℝ) (ξ : List (N → ℝ)) (α c : ℝ) (hc : 1 ≤ c)
    (hse : ∀ e, eps ≤ F.se y e) (e : E) :
    band F (c • y) ξ α e = (band F y ξ α e).map (fun p => (c * p.1, c * p.2)) := by
  have hc0 : 0 < c := by linarith
  have hs : ∀ x, bStat F (c • y) x = bStat F y x := by
    intro x
    refine supT_scale _ _ _ _ c hc0.ne' (boot_smul F c y x) (se_smul F c y) (fun e => Or.inr ⟨hse e, ?_⟩)
    rw [abs_of_pos hc0]
    have := hse e
    nlinarith [eps_pos]
  have hpos : ∀ e, 0 < F.se y e := fun e => lt_of_lt_of_le eps_pos (hse e)
  have hpos' : ∀ e, 0 < F.se (c • y) e := fun e => by rw [se_smul]; exact mul_pos (abs_pos.2 hc0.ne') (hpos e)
  unfold band cvBand
  rw [funext hs]
  cases quantLower (ξ.map (bStat F y)) (1 - α) with
  | none => rfl
  | some cv =>
    simp only [Option.map_some, Option.some.injEq, Prod.mk.injEq]
    unfold margin
    rw [if_pos hpos, if_pos hpos', h_smul, se_smul, abs_of_pos hc0]
    constructor <;> ring

/-- C204 violated.  If the standard error vanishes at one evaluation point, the half width of the band
is the unit-free critical value everywhere: measuring the outcome in units `c` times smaller multiplies
the estimates by `c` and leaves the half width as it was. -/
theorem C204_units_violated (F : Fit N E J) (y : N → ℝ) (ξ : List (N → ℝ)) (α c : ℝ) (hc : 1 ≤ c)
    (hse : ∀ e, F.se y e = 0 ∨ eps ≤ F.se y e) (h0 : ∃ e, F.se y e = 0) (e : E) :
    cvBand F (c • y) ξ α = cvBand F y ξ α ∧ F.h (c • y) e = c * F.h y e ∧
    ∀ cv, cvBand F y ξ α = some cv →
      band F y ξ α e = some (F.h y e - cv, F.h y e + cv) ∧
      band F (c • y) ξ α e = some (c * F.h y e - cv, c * F.h y e + cv) := by
  have hc0 : 0 < c := by linarith
  have hs : ∀ x, bStat F (c • y) x = bStat F y x := by
    intro x
    refine supT_scale _ _ _ _ c hc0.ne' (boot_smul F c y x) (se_smul F c y) (fun e => ?_)
    rcases hse e with h | h
    · exact Or.inl (boot_zero_of_se F y x e h)
    · refine Or.inr ⟨h, ?_⟩
      rw [abs_of_pos hc0]
      nlinarith [eps_pos]
  have hcv : cvBand F (c • y) ξ α = cvBand F y ξ α := by
    unfold cvBand
    rw [funext hs]
  obtain ⟨e0, he0⟩ := h0
  have n1 : ¬ ∀ e, 0 < F.se y e := fun h => by have := h e0; rw [he0] at this; exact lt_irrefl _ this
  have n2 : ¬ ∀ e, 0 < F.se (c • y) e := fun h => by
    have := h e0
    rw [se_smul, he0, mul_zero] at this
    exact lt_irrefl _ this
  refine ⟨hcv, h_smul F c y e, fun cv h => ⟨?_, ?_⟩⟩
  · unfold band
    rw [h]
    simp [margin, n1]
  · unfold band
    rw [hcv, h]
    simp [margin, n2, h_smul]

open scoped ENNReal in
/-- C204.  The critical value of the data-driven band is at least the quantile of the bootstrap
statistics. -/
theorem C204_adaptive_wider (zStar : ℝ≥0∞) (J : ℕ) (θ : ℝ≥0∞) : zStar ≤ cckCv zStar J θ := by
  unfold cckCv
  exact le_self_add

/-! ## A concrete fit -/

/-- The mean of two observations, evaluated at one point. -/
noncomputable def exFit : Fit (Fin 2) (Fin 1) (Fin 1) where
  psi := !![1; 1]
  psiEval := !![1]
  tmp := !![1 / 2, 1 / 2]

/-- The first observation alone. -/
noncomputable def exFit' : Fit (Fin 2) (Fin 1) (Fin 1) where
  psi := !![1; 1]
  psiEval := !![1]
  tmp := !![1, 0]

theorem exFit_inf (i : Fin 2) : exFit.inf ![0, 2] 0 i = ![-1 / 2, 1 / 2] i := by
  fin_cases i <;> simp [Fit.inf, Fit.u, exFit, Matrix.mul_apply, Matrix.mulVec, dotProduct] <;> norm_num

theorem exFit_inf' (i : Fin 2) : exFit'.inf ![0, 2] 0 i = ![0, 0] i := by
  fin_cases i <;> simp [Fit.inf, Fit.u, exFit', Matrix.mul_apply, Matrix.mulVec, dotProduct]

theorem exFit_se : exFit.se ![0, 2] 0 = Real.sqrt (1 / 2) := by
  have : exFit.var ![0, 2] 0 = 1 / 2 := by
    rw [var_eq, Fin.sum_univ_two, exFit_inf, exFit_inf]
    norm_num
  rw [Fit.se, this, abs_of_pos (by norm_num)]

example : varDiff exFit exFit' ![0, 2] 0 = 1 / 2 := by
  rw [(C203_variance exFit exFit' ![0, 2] 0).1, Fin.sum_univ_two]
  simp only [exFit_inf, exFit_inf']
  norm_num

theorem eps_le_half : eps ≤ Real.sqrt (1 / 2) := by
  apply Real.le_sqrt_of_sq_le
  unfold eps
  norm_num

example : ∀ e, eps ≤ exFit.se ![0, 2] e := by
  intro e
  fin_cases e
  show eps ≤ exFit.se ![0, 2] 0
  rw [exFit_se]
  exact eps_le_half

/-- Ninety-nine draws without ties. -/
noncomputable def exDraws : List (Fin 2 → ℝ) := (List.range 99).map (fun (k : ℕ) => ![0, (k : ℝ)])

example : ∃ cv, cvBand exFit ![0, 2] exDraws (5 / 100) = some cv ∧
    (exDraws.countP (fun x => decide (∀ e, |exFit.boot ![0, 2] x e| ≤ margin exFit ![0, 2] cv e)) : ℝ) <
      (1 - 5 / 100) * 99 := by
  have hse : ∀ e, eps ≤ exFit.se ![0, 2] e := by
    intro e
    fin_cases e
    show eps ≤ exFit.se ![0, 2] 0
    rw [exFit_se]
    exact eps_le_half
  have hs : (0 : ℝ) < Real.sqrt (1 / 2) := Real.sqrt_pos.2 (by norm_num)
  have hst : ∀ k : ℕ, bStat exFit ![0, 2] ![0, (k : ℝ)] = (k : ℝ) / 2 / Real.sqrt (1 / 2) := by
    intro k
    have hb : exFit.boot ![0, 2] ![0, (k : ℝ)] 0 = (k : ℝ) / 2 := by
      rw [boot_eq, Fin.sum_univ_two, exFit_inf, exFit_inf]
      simp
      ring
    have hu : (Finset.univ : Finset (Fin 1)) = {0} := rfl
    simp only [bStat, supT, hu, Finset.sup'_singleton, hb, exFit_se]
    rw [max_eq_left eps_le_half, abs_of_nonneg (by positivity)]
  have hnd : (exDraws.map (bStat exFit ![0, 2])).Nodup := by
    unfold exDraws
    rw [List.map_map]
    refine List.Nodup.map (fun a b hab => ?_) List.nodup_range
    simp only [Function.comp_apply, hst] at hab
    rw [div_left_inj' hs.ne', div_left_inj' (by norm_num)] at hab
    exact_mod_cast hab
  obtain ⟨cv, hcv, _⟩ := quantLower_isSome (exDraws.map (bStat exFit ![0, 2])) (1 - 5 / 100)
    (by unfold exDraws; intro h; have := congrArg List.length h; simp at this) (by norm_num) (by norm_num)
  refine ⟨cv, hcv, ?_⟩
  have h := C204_default_violated exFit ![0, 2] exDraws cv (by simp [exDraws]) hcv hse hnd
  have hl : exDraws.length = 99 := by simp [exDraws]
  rw [hl] at h
  exact_mod_cast h

example : ∃ e, exFit'.se ![0, 2] e = 0 := by
  refine ⟨0, ?_⟩
  have : exFit'.var ![0, 2] 0 = 0 := by
    rw [var_eq, Fin.sum_univ_two, exFit_inf', exFit_inf']
    norm_num
  rw [Fit.se, this]
  simp

end Verif.Npiv.Sel
