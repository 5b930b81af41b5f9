import Verif.Honest.FlciModel
import Verif.Honest.FlciSpec
import Verif.Honest.Lemmas
import Verif.Honest.Identified
import Mathlib.Tactic.Ring
import Mathlib.Tactic.Linarith
import Mathlib.Tactic.FieldSimp
import Mathlib.Tactic.LinearCombination
import Mathlib.Algebra.Order.Field.Rat
import Mathlib.Tactic.NormNum

/-!
# C149-C151: the affine estimator behind the fixed-length confidence interval
-/

set_option linter.unusedSectionVars false
set_option linter.unusedSimpArgs false

namespace Verif.Honest

open Finset

variable {K : Type*} [Field K] [LinearOrder K] [IsStrictOrderedRing K]

/-! ### Summation by parts -/

theorem abel_levels (n : ℕ) (w x : ℕ → K) :
    ∑ j ∈ range (n + 1), weightsToL w j * x j = w n * x (n + 1) - ∑ j ∈ range (n + 1), w j * D1 x j := by
  induction n with
  | zero => simp [weightsToL, D1]; ring
  | succ n ih =>
    rw [sum_range_succ, ih, sum_range_succ (fun j => w j * D1 x j) (n + 1)]
    simp only [weightsToL, Nat.add_eq_zero_iff, one_ne_zero, and_false, if_false, Nat.add_sub_cancel, D1]
    ring

theorem abel_cum (n : ℕ) (w d : ℕ → K) :
    ∑ j ∈ range (n + 1), w j * d j =
      (∑ i ∈ range (n + 1), w i) * d n - ∑ j ∈ range n, (∑ i ∈ range (j + 1), w i) * (d (j + 1) - d j) := by
  induction n with
  | zero => simp
  | succ n ih =>
    rw [sum_range_succ, ih, sum_range_succ w (n + 1),
      sum_range_succ (fun j => (∑ i ∈ range (j + 1), w i) * (d (j + 1) - d j)) n]
    ring

theorem trilMul_eq (p i : ℕ) (w : ℕ → K) (h : i < p) : trilMul p w i = ∑ j ∈ range (i + 1), w j := by
  unfold trilMul
  have : range (i + 1) ⊆ range p := range_subset_range.2 h
  rw [← sum_subset this]
  · exact sum_congr rfl fun j hj => by
      rw [if_pos (Nat.lt_succ_iff.1 (mem_range.1 hj)), one_mul]
  · intro j _ hj
    rw [if_neg (by intro h'; exact hj (mem_range.2 (Nat.lt_succ_iff.2 h'))), zero_mul]

/-- `sum_{k >= u} (k - u + 1) l_k`. -/
def tailSum (q : ℕ) (l : ℕ → K) (u : ℕ) : K := ∑ m ∈ range (q - u), ((m : K) + 1) * l (u + m)

theorem tailSum_zero (q : ℕ) (l : ℕ → K) : tailSum q l 0 = targetSum q l := by simp [tailSum, targetSum]

theorem biasConstant_eq (q : ℕ) (l : ℕ → K) : biasConstant q l = (∑ u ∈ range q, |tailSum q l u|) - targetSum q l := by
  unfold biasConstant
  congr 1
  rw [← sum_range_reflect]
  refine sum_congr rfl fun u hu => ?_
  have hu := mem_range.1 hu
  have e1 : q - 1 - u + 1 = q - u := by omega
  have e2 : q - (q - u) = u := by omega
  rw [e1, e2]
  rfl

theorem post_values (n k : ℕ) (x : ℕ → K) (h0 : x (n + 1) = 0) :
    x (n + 2 + k) = ((k : K) + 1) * D1 x n + ∑ u ∈ range (k + 1), ((k : K) - u + 1) * D2 x (n + u) ∧
      D1 x (n + 1 + k) = D1 x n + ∑ u ∈ range (k + 1), D2 x (n + u) := by
  induction k with
  | zero =>
    simp only [D1, D2, Nat.add_zero, Nat.cast_zero, zero_add, sum_range_one, h0]
    constructor <;> ring
  | succ k ih =>
    obtain ⟨h1, h2⟩ := ih
    have e : x (n + 2 + (k + 1)) = x (n + 2 + k) + D1 x (n + 1 + (k + 1)) := by
      have : n + 1 + (k + 1) = n + 2 + k := by omega
      simp only [D1, this]
      rw [show n + 2 + (k + 1) = n + 2 + k + 1 from by omega]
      ring
    have h3 : D1 x (n + 1 + (k + 1)) = D1 x n + ∑ u ∈ range (k + 1 + 1), D2 x (n + u) := by
      have e4 : D1 x (n + 1 + (k + 1)) = D1 x (n + 1 + k) + D2 x (n + (k + 1)) := by
        simp only [D1, D2]
        rw [show n + 1 + (k + 1) = n + 1 + k + 1 from by omega, show n + (k + 1) = n + 1 + k from by omega]
        ring
      rw [e4, h2, sum_range_succ (fun u => D2 x (n + u)) (k + 1)]
      ring
    refine ⟨?_, h3⟩
    rw [e, h1, h3, sum_range_succ (fun u => (((k + 1 : ℕ) : K) - u + 1) * D2 x (n + u)),
      sum_range_succ (fun u => D2 x (n + u)) (k + 1)]
    have : ∑ u ∈ range (k + 1), (((k + 1 : ℕ) : K) - u + 1) * D2 x (n + u) =
        ∑ u ∈ range (k + 1), ((k : K) - u + 1) * D2 x (n + u) + ∑ u ∈ range (k + 1), D2 x (n + u) := by
      rw [← sum_add_distrib]
      exact sum_congr rfl fun u _ => by push_cast; ring
    rw [this]
    push_cast
    ring

theorem tail_swap (q : ℕ) (l e : ℕ → K) :
    ∑ k ∈ range q, l k * ∑ u ∈ range (k + 1), ((k : K) - u + 1) * e u = ∑ u ∈ range q, tailSum q l u * e u := by
  induction q with
  | zero => simp
  | succ q ih =>
    rw [sum_range_succ, ih]
    have h : ∀ u ∈ range (q + 1), tailSum (q + 1) l u * e u = tailSum q l u * e u + l q * (((q : K) - u + 1) * e u) := by
      intro u hu
      have hu : u ≤ q := Nat.lt_succ_iff.1 (mem_range.1 hu)
      unfold tailSum
      rw [show q + 1 - u = (q - u) + 1 from by omega, sum_range_succ, show u + (q - u) = q from by omega,
        Nat.cast_sub hu]
      ring
    rw [sum_congr rfl h, sum_add_distrib, ← mul_sum, sum_range_succ (fun u => tailSum q l u * e u)]
    have : tailSum q l q = 0 := by simp [tailSum]
    rw [this]
    ring

theorem targetSum_eq (q : ℕ) (l : ℕ → K) : ∑ k ∈ range q, l k * ((k : K) + 1) = targetSum q l :=
  sum_congr rfl fun k _ => mul_comm _ _

/-- The bias of an estimator with pre-treatment weights `weightsToL w`. -/
theorem estBias_split (n q : ℕ) (a l w δ τ : ℕ → K) (hpre : ∀ j < n + 1, a j = weightsToL w j)
    (hpost : PostIs (n + 1) q a l) :
    estBias (n + 1) q a l δ τ = (targetSum q l - ∑ i ∈ range (n + 1), w i) * D1 (full (n + 1) δ) n +
      ∑ j ∈ range n, (∑ i ∈ range (j + 1), w i) * D2 (full (n + 1) δ) j +
      ∑ u ∈ range q, tailSum q l u * D2 (full (n + 1) δ) (n + u) := by
  set x := full (n + 1) δ with hx
  have hx0 : x (n + 1) = 0 := by simp [hx, full]
  have hpreSum : ∑ j ∈ range (n + 1), a j * betaOf (n + 1) δ τ j = ∑ j ∈ range (n + 1), weightsToL w j * x j := by
    refine sum_congr rfl fun j hj => ?_
    have hj := mem_range.1 hj
    simp [betaOf, hx, full, hj, hpre j hj]
  have hpostSum : ∑ k ∈ range q, a (n + 1 + k) * betaOf (n + 1) δ τ (n + 1 + k) - thetaOf q l τ =
      ∑ k ∈ range q, l k * x (n + 2 + k) := by
    unfold thetaOf
    rw [← sum_sub_distrib]
    refine sum_congr rfl fun k hk => ?_
    rw [hpost k (mem_range.1 hk)]
    have h1 : betaOf (n + 1) δ τ (n + 1 + k) = δ (n + 1 + k) + τ k := by
      simp [betaOf, show ¬ (n + 1 + k < n + 1) from by omega]
    have h2 : x (n + 2 + k) = δ (n + 1 + k) := by
      rw [hx]
      unfold full
      rw [if_neg (by omega), if_neg (by omega), show n + 2 + k - 1 = n + 1 + k from by omega]
    rw [h1, h2]
    ring
  unfold estBias
  rw [sum_range_add, hpreSum, abel_levels, hx0, abel_cum]
  have e : ∀ j ∈ range n, (∑ i ∈ range (j + 1), w i) * (D1 x (j + 1) - D1 x j) = (∑ i ∈ range (j + 1), w i) * D2 x j := by
    intro j _
    simp only [D1, D2]
    ring
  rw [sum_congr rfl e, add_sub_assoc, hpostSum]
  have e2 : ∑ k ∈ range q, l k * x (n + 2 + k) =
      targetSum q l * D1 x n + ∑ u ∈ range q, tailSum q l u * D2 x (n + u) := by
    rw [← tail_swap, ← targetSum_eq, sum_mul, ← sum_add_distrib]
    refine sum_congr rfl fun k _ => ?_
    rw [(post_values n k x hx0).1]
    ring
  rw [e2]
  ring

/-- The largest bias over second differences of at most one. -/
def worst (n q : ℕ) (w l : ℕ → K) : K :=
  ∑ j ∈ range n, |∑ i ∈ range (j + 1), w i| + ∑ u ∈ range q, |tailSum q l u|

theorem bias_le (n q : ℕ) (a l w δ τ : ℕ → K) (hpre : ∀ j < n + 1, a j = weightsToL w j) (hpost : PostIs (n + 1) q a l)
    (hsum : ∑ i ∈ range (n + 1), w i = targetSum q l) (M : K) (hδ : δ ∈ DeltaSD (n + 1) q M) :
    |estBias (n + 1) q a l δ τ| ≤ worst n q w l * M := by
  rw [estBias_split n q a l w δ τ hpre hpost, hsum, sub_self, zero_mul, zero_add]
  refine (abs_add_le _ _).trans ?_
  unfold worst
  rw [add_mul, sum_mul, sum_mul]
  refine add_le_add ((abs_sum_le_sum_abs _ _).trans (sum_le_sum fun j hj => ?_))
    ((abs_sum_le_sum_abs _ _).trans (sum_le_sum fun u hu => ?_))
  · rw [abs_mul]
    exact mul_le_mul_of_nonneg_left (hδ j (by have := mem_range.1 hj; omega)) (abs_nonneg _)
  · rw [abs_mul]
    exact mul_le_mul_of_nonneg_left (hδ (n + u) (by have := mem_range.1 hu; omega)) (abs_nonneg _)

/-- A path with prescribed second differences. -/
def pathOf (p : ℕ) (e : ℕ → K) (j : ℕ) : K :=
  let y : ℕ → K := fun m => ∑ i ∈ range m, ∑ r ∈ range i, e r
  if j < p then y j - y p else y (j + 1) - y p

theorem pathOf_D2 (p : ℕ) (e : ℕ → K) (r : ℕ) : D2 (full p (pathOf p e)) r = e r := by
  have h : ∀ j, full p (pathOf p e) j = (∑ i ∈ range j, ∑ r ∈ range i, e r) - ∑ i ∈ range p, ∑ r ∈ range i, e r := by
    intro j
    unfold full pathOf
    rcases lt_trichotomy j p with hj | hj | hj
    · simp [hj]
    · simp [hj]
    · rw [if_neg (by omega), if_neg (by omega)]
      simp only
      rw [if_neg (by omega), show j - 1 + 1 = j from by omega]
  unfold D2
  rw [h, h, h, sum_range_succ _ (r + 1), sum_range_succ _ r, sum_range_succ e r]
  ring

def sgnK (c : K) : K := if 0 ≤ c then 1 else -1

theorem mul_sgnK (c : K) : c * sgnK c = |c| := by
  unfold sgnK
  split_ifs with h
  · rw [abs_of_nonneg h, mul_one]
  · rw [abs_of_neg (not_le.1 h), mul_neg, mul_one]

theorem abs_sgnK (c : K) : |sgnK c| = 1 := by
  unfold sgnK
  split_ifs <;> simp

theorem bias_attained (n q : ℕ) (a l w : ℕ → K) (hpre : ∀ j < n + 1, a j = weightsToL w j) (hpost : PostIs (n + 1) q a l)
    (hsum : ∑ i ∈ range (n + 1), w i = targetSum q l) (M : K) (hM : 0 ≤ M) :
    ∃ δ ∈ DeltaSD (n + 1) q M, ∀ τ, estBias (n + 1) q a l δ τ = worst n q w l * M := by
  set e : ℕ → K := fun r => M * sgnK (if r < n then ∑ i ∈ range (r + 1), w i else tailSum q l (r - n)) with he
  refine ⟨pathOf (n + 1) e, ?_, ?_⟩
  · intro r _
    rw [pathOf_D2, he]
    simp only
    rw [abs_mul, abs_sgnK, mul_one, abs_of_nonneg hM]
  · intro τ
    rw [estBias_split n q a l w _ τ hpre hpost, hsum, sub_self, zero_mul, zero_add]
    unfold worst
    rw [add_mul, sum_mul, sum_mul]
    congr 1
    · refine sum_congr rfl fun j hj => ?_
      rw [pathOf_D2, he]
      simp only
      rw [if_pos (mem_range.1 hj), ← mul_sgnK]
      ring
    · refine sum_congr rfl fun u hu => ?_
      rw [pathOf_D2, he]
      simp only
      rw [if_neg (by omega), show n + u - n = u from by omega, ← mul_sgnK]
      ring

theorem isWorst_of (n q : ℕ) (a l w : ℕ → K) (hpre : ∀ j < n + 1, a j = weightsToL w j) (hpost : PostIs (n + 1) q a l)
    (hsum : ∑ i ∈ range (n + 1), w i = targetSum q l) (M : K) (hM : 0 ≤ M) :
    IsWorstBias (n + 1) q a l M (worst n q w l * M) := by
  constructor
  · obtain ⟨δ, hδ, h⟩ := bias_attained n q a l w hpre hpost hsum M hM
    refine ⟨δ, hδ, fun _ => 0, ?_⟩
    rw [h, abs_of_nonneg]
    refine mul_nonneg (add_nonneg (sum_nonneg fun _ _ => abs_nonneg _) (sum_nonneg fun _ _ => abs_nonneg _)) hM
  · rintro b ⟨δ, hδ, τ, rfl⟩
    exact bias_le n q a l w δ τ hpre hpost hsum M hδ

theorem optimalVec_pre (p : ℕ) (l x : ℕ → K) : ∀ j < p, optimalVec p l x j = weightsToL (weightPart p x) j :=
  fun j hj => by simp [optimalVec, hj]

theorem optimalVec_post (p q : ℕ) (l x : ℕ → K) : PostIs p q (optimalVec p l x) l :=
  fun k _ => by simp [optimalVec]

theorem objective_ge (n q : ℕ) (l x : ℕ → K) (hx : x ∈ weightSet (n + 1) q l) :
    worst n q (weightPart (n + 1) x) l + (|targetSum q l| - targetSum q l) ≤ biasObjective (n + 1) q l x := by
  obtain ⟨h1, h2⟩ := hx
  unfold worst biasObjective
  rw [biasConstant_eq, sum_range_succ]
  have ha : ∑ j ∈ range n, |∑ i ∈ range (j + 1), weightPart (n + 1) x i| ≤ ∑ j ∈ range n, x j :=
    sum_le_sum fun j hj => by
      have hj := mem_range.1 hj
      have := h1 j (by omega)
      rw [trilMul_eq _ _ _ (by omega)] at this
      exact abs_le.2 this
  have hb : |targetSum q l| ≤ x n := by
    have := h1 n (by omega)
    rw [trilMul_eq _ _ _ (by omega), h2] at this
    exact abs_le.2 this
  linarith

/-- The stacked variables for given weights: tight absolute values. -/
def stackOf (p : ℕ) (w : ℕ → K) (i : ℕ) : K := if i < p then |trilMul p w i| else w (i - p)

theorem stackOf_weight (p : ℕ) (w : ℕ → K) : weightPart p (stackOf p w) = w := by
  funext i
  simp [weightPart, stackOf]

theorem stackOf_mem (p q : ℕ) (l w : ℕ → K) (h : ∑ i ∈ range p, w i = targetSum q l) : stackOf p w ∈ weightSet p q l := by
  refine ⟨fun i hi => ?_, by rw [stackOf_weight]; exact h⟩
  rw [stackOf_weight]
  simp only [stackOf, if_pos hi]
  exact abs_le.1 le_rfl

theorem stackOf_objective (n q : ℕ) (l w : ℕ → K) (h : ∑ i ∈ range (n + 1), w i = targetSum q l) :
    biasObjective (n + 1) q l (stackOf (n + 1) w) = worst n q w l + (|targetSum q l| - targetSum q l) := by
  unfold worst biasObjective
  rw [biasConstant_eq, sum_range_succ]
  have ha : ∑ j ∈ range n, stackOf (n + 1) w j = ∑ j ∈ range n, |∑ i ∈ range (j + 1), w i| :=
    sum_congr rfl fun j hj => by
      have hj := mem_range.1 hj
      rw [stackOf, if_pos (by omega), trilMul_eq _ _ _ (by omega)]
  have hb : stackOf (n + 1) w n = |targetSum q l| := by
    rw [stackOf, if_pos (by omega), trilMul_eq _ _ _ (by omega), h]
  rw [ha, hb]
  ring

/-! ### The variance -/

theorem stackedT_mul (p i : ℕ) (hi : i < p) (x : ℕ → K) :
    ∑ j ∈ range (2 * p), stackedT p i j * x j = weightsToL (weightPart p x) i := by
  rw [two_mul, sum_range_add]
  have h0 : ∑ j ∈ range p, stackedT p i j * x j = 0 :=
    sum_eq_zero fun j hj => by simp [stackedT, mem_range.1 hj]
  rw [h0, zero_add]
  have h1 : ∀ j, stackedT p i (p + j) * x (p + j) =
      (if j = i then x (p + i) else 0) + (if j + 1 = i then -x (p + (i - 1)) else 0) := by
    intro j
    simp only [stackedT, show ¬ (p + j < p) from by omega, if_false, Nat.add_sub_cancel_left, diffMat]
    by_cases hj : i = j
    · subst hj
      simp
    · rw [if_neg hj, if_neg (show ¬ j = i from fun h => hj h.symm)]
      by_cases hj2 : j + 1 = i
      · subst hj2
        simp
      · simp [hj2]
  rw [sum_congr rfl fun j _ => h1 j, sum_add_distrib, sum_ite_eq' (range p) i, if_pos (mem_range.2 hi)]
  unfold weightsToL weightPart
  by_cases hz : i = 0
  · subst hz
    simp
  · rw [if_neg hz]
    have h2 : ∀ j ∈ range p, (if j + 1 = i then -x (p + (i - 1)) else 0) = if j = i - 1 then -x (p + (i - 1)) else 0 := by
      intro j _
      by_cases hj : j + 1 = i
      · rw [if_pos hj, if_pos (by omega)]
      · rw [if_neg hj, if_neg (by omega)]
    rw [sum_congr rfl h2, sum_ite_eq' (range p) (i - 1), if_pos (mem_range.2 (by omega))]
    ring

theorem varianceExpr_eq (p q : ℕ) (sigma : ℕ → ℕ → K) (l x : ℕ → K) :
    varianceExpr p q sigma l x = affineVariance p q (weightsToL (weightPart p x)) l sigma := by
  unfold varianceExpr affineVariance
  congr 1
  congr 1
  · have : ∀ j ∈ range (2 * p), ∀ k ∈ range (2 * p), x j * aQuad p sigma j k * x k =
        ∑ i ∈ range p, ∑ m ∈ range p, (stackedT p i j * x j) * sigma i m * (stackedT p m k * x k) := by
      intro j _ k _
      unfold aQuad
      rw [mul_sum, sum_mul]
      refine sum_congr rfl fun i _ => ?_
      rw [mul_sum, sum_mul]
      exact sum_congr rfl fun m _ => by ring
    rw [sum_congr rfl fun j hj => sum_congr rfl fun k hk => this j hj k hk]
    rw [sum_congr rfl fun j _ => sum_comm]
    rw [sum_comm]
    refine sum_congr rfl fun i hi => ?_
    rw [sum_congr rfl fun j _ => sum_comm]
    rw [sum_comm]
    refine sum_congr rfl fun m hm => ?_
    rw [← stackedT_mul p i (mem_range.1 hi), ← stackedT_mul p m (mem_range.1 hm), mul_assoc, mul_sum, sum_mul]
    refine sum_congr rfl fun j _ => ?_
    rw [mul_sum]
    exact sum_congr rfl fun k _ => by ring
  · have : ∀ j ∈ range (2 * p), aLin p q sigma l j * x j =
        ∑ i ∈ range p, 2 * ((stackedT p i j * x j) * ∑ k ∈ range q, sigma i (p + k) * l k) := by
      intro j _
      unfold aLin
      rw [mul_sum, sum_mul]
      exact sum_congr rfl fun i _ => by ring
    rw [sum_congr rfl this, sum_comm, mul_sum]
    refine sum_congr rfl fun i hi => ?_
    rw [← mul_sum, ← sum_mul, stackedT_mul p i (mem_range.1 hi), mul_sum]
    congr 1
    exact sum_congr rfl fun k _ => by ring

theorem affineVariance_eq (p q : ℕ) (a lpre l : ℕ → K) (sigma : ℕ → ℕ → K) (hpre : ∀ j < p, a j = lpre j)
    (hpost : PostIs p q a l) (hs : ∀ i < p, ∀ k < q, sigma i (p + k) = sigma (p + k) i) :
    affineVariance p q lpre l sigma = quadForm (p + q) a sigma := by
  unfold affineVariance quadForm sigmaPost
  rw [sum_range_add]
  have h1 : ∀ i, ∑ j ∈ range (p + q), a i * sigma i j * a j =
      ∑ j ∈ range p, a i * sigma i j * lpre j + ∑ k ∈ range q, a i * sigma i (p + k) * l k := by
    intro i
    rw [sum_range_add]
    congr 1
    · exact sum_congr rfl fun j hj => by rw [hpre j (mem_range.1 hj)]
    · exact sum_congr rfl fun k hk => by rw [hpost k (mem_range.1 hk)]
  simp only [h1]
  have hA : ∑ i ∈ range p, (∑ j ∈ range p, a i * sigma i j * lpre j + ∑ k ∈ range q, a i * sigma i (p + k) * l k) =
      ∑ i ∈ range p, ∑ j ∈ range p, lpre i * sigma i j * lpre j +
        ∑ i ∈ range p, ∑ k ∈ range q, lpre i * sigma i (p + k) * l k := by
    rw [← sum_add_distrib]
    exact sum_congr rfl fun i hi => by rw [hpre i (mem_range.1 hi)]
  have hB : ∑ k ∈ range q, (∑ j ∈ range p, a (p + k) * sigma (p + k) j * lpre j +
        ∑ m ∈ range q, a (p + k) * sigma (p + k) (p + m) * l m) =
      ∑ i ∈ range p, ∑ k ∈ range q, lpre i * sigma i (p + k) * l k +
        ∑ k ∈ range q, ∑ m ∈ range q, l k * sigma (p + k) (p + m) * l m := by
    rw [sum_comm (s := range p), ← sum_add_distrib]
    refine sum_congr rfl fun k hk => ?_
    rw [hpost k (mem_range.1 hk)]
    congr 1
    refine sum_congr rfl fun i hi => ?_
    rw [hs i (mem_range.1 hi) k (mem_range.1 hk)]
    ring
  rw [hA, hB]
  ring

end Verif.Honest
