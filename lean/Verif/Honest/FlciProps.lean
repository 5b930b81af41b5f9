import Verif.Honest.Flci
import Mathlib.Algebra.BigOperators.Fin

/-!
# C149-C151: theorems
-/

set_option linter.unusedSectionVars false
set_option linter.unusedSimpArgs false

namespace Verif.Honest

open Finset

variable {K : Type*} [Field K] [LinearOrder K] [IsStrictOrderedRing K]

/-! ### C150: variance and the range of the search -/

/-- C150: the quadratic constraint of the program is the variance of the estimator it returns. -/
theorem C150_variance (p q : ℕ) (sigma : ℕ → ℕ → K) (l x : ℕ → K)
    (hs : ∀ i < p, ∀ k < q, sigma i (p + k) = sigma (p + k) i) :
    varianceExpr p q sigma l x = quadForm (p + q) (optimalVec p l x) sigma := by
  rw [varianceExpr_eq]
  exact affineVariance_eq p q _ _ l sigma (optimalVec_pre p l x) (optimalVec_post p q l x) hs

theorem minBias_sum (n q : ℕ) (l : ℕ → K) : ∑ i ∈ range (n + 1), minBiasWeights (n + 1) q l i = targetSum q l := by
  rw [sum_range_succ, sum_eq_zero, zero_add]
  · simp [minBiasWeights]
  · intro i hi
    have := mem_range.1 hi
    simp [minBiasWeights, show i ≠ n from by omega]

theorem minBias_worst (n q : ℕ) (l : ℕ → K) :
    worst n q (minBiasWeights (n + 1) q l) l = ∑ u ∈ range q, |tailSum q l u| := by
  unfold worst
  rw [sum_eq_zero, zero_add]
  intro j hj
  have hj := mem_range.1 hj
  rw [sum_eq_zero, abs_zero]
  intro i hi
  have := mem_range.1 hi
  simp [minBiasWeights, show i ≠ n from by omega]

/-- C150: at every `h` that is at least the value returned by `get_min_bias_h`, putting all the weight on the last pre-treatment
period solves the program; in particular the program is feasible there. -/
theorem C150_min_bias (p q : ℕ) (hp : 1 ≤ p) (sigma : ℕ → ℕ → K) (l : ℕ → K) (h : K)
    (hh : minBiasVariance p q sigma l ≤ h ^ 2) :
    Solves (biasSet p q sigma l h) (biasObjective p q l) (stackOf p (minBiasWeights p q l)) := by
  obtain ⟨n, rfl⟩ : ∃ n, p = n + 1 := ⟨p - 1, by omega⟩
  refine ⟨⟨stackOf_mem _ _ _ _ (minBias_sum n q l), ?_⟩, ?_⟩
  · rw [varianceExpr_eq, stackOf_weight]
    exact hh
  · rintro y ⟨hy, _⟩
    refine le_trans ?_ (objective_ge n q l y hy)
    rw [stackOf_objective n q l _ (minBias_sum n q l), minBias_worst]
    have : 0 ≤ ∑ j ∈ range n, |∑ i ∈ range (j + 1), weightPart (n + 1) y i| := sum_nonneg fun _ _ => abs_nonneg _
    unfold worst
    linarith

/-- C150: no estimator of the program has a smaller worst-case bound than the one of `get_min_bias_h`. -/
theorem C150_least_bias (p q : ℕ) (hp : 1 ≤ p) (l y : ℕ → K) (hy : y ∈ weightSet p q l) :
    biasObjective p q l (stackOf p (minBiasWeights p q l)) ≤ biasObjective p q l y := by
  have := C150_min_bias p q hp (fun _ _ => 0) l (0 : K)
    (by simp [minBiasVariance, affineVariance, sigmaPost])
  refine this.2 y ⟨hy, ?_⟩
  rw [varianceExpr_eq]
  simp [affineVariance, sigmaPost]

/-- C150: the search range is ordered (the minimal variance is at most the variance of `get_min_bias_h`), and the program at
`h` has a solution exactly from the minimal standard deviation on. -/
theorem C150_range (p q : ℕ) (hp : 1 ≤ p) (sigma : ℕ → ℕ → K) (l x0 : ℕ → K)
    (h0 : Solves (weightSet p q l) (varianceExpr p q sigma l) x0) :
    varianceExpr p q sigma l x0 ≤ minBiasVariance p q sigma l ∧
      ∀ h, (biasSet p q sigma l h).Nonempty ↔ varianceExpr p q sigma l x0 ≤ h ^ 2 := by
  obtain ⟨n, rfl⟩ : ∃ n, p = n + 1 := ⟨p - 1, by omega⟩
  constructor
  · have := h0.2 _ (stackOf_mem _ _ _ _ (minBias_sum n q l))
    rwa [varianceExpr_eq _ _ _ _ (stackOf _ _), stackOf_weight] at this
  · intro h
    constructor
    · rintro ⟨y, hy, hv⟩
      exact (h0.2 y hy).trans hv
    · intro hv
      exact ⟨x0, h0.1, hv⟩

/-- C150: a larger standard deviation never raises the bias. -/
theorem C150_tradeoff (p q : ℕ) (sigma : ℕ → ℕ → K) (l x y : ℕ → K) (h h' : K) (h0 : 0 ≤ h) (hh : h ≤ h')
    (hx : Solves (biasSet p q sigma l h) (biasObjective p q l) x)
    (hy : Solves (biasSet p q sigma l h') (biasObjective p q l) y) (M : K) (hM : 0 ≤ M) :
    biasValue p q l M y ≤ biasValue p q l M x :=
  mul_le_mul_of_nonneg_right (hy.2 x ⟨hx.1.1, hx.1.2.trans (pow_le_pow_left₀ h0 hh 2)⟩) hM

/-- C150: with a single pre-treatment period the range is a single point. -/
theorem C150_one_pre (q : ℕ) (sigma : ℕ → ℕ → K) (l x : ℕ → K) (hx : x ∈ weightSet 1 q l) :
    varianceExpr 1 q sigma l x = minBiasVariance 1 q sigma l := by
  rw [varianceExpr_eq]
  unfold minBiasVariance
  have h := hx.2
  simp only [sum_range_one] at h
  have e : weightsToL (weightPart 1 x) 0 = weightsToL (minBiasWeights 1 q l) 0 := by
    simp [weightsToL, h, minBiasWeights]
  unfold affineVariance
  simp only [sum_range_one, e]

/-! ### C149: the worst-case bias -/

/-- C149: the reported bias bounds the bias of the returned estimator for every violation in `Delta^SD(M)` and all effects. -/
theorem C149_sound (p q : ℕ) (hp : 1 ≤ p) (l x : ℕ → K) (M : K) (hx : x ∈ weightSet p q l) (δ : ℕ → K)
    (hM : 0 ≤ M) (hδ : δ ∈ DeltaSD p q M) (τ : ℕ → K) :
    |estBias p q (optimalVec p l x) l δ τ| ≤ biasValue p q l M x := by
  obtain ⟨n, rfl⟩ : ∃ n, p = n + 1 := ⟨p - 1, by omega⟩
  refine (bias_le n q _ l (weightPart (n + 1) x) δ τ (optimalVec_pre _ l x) (optimalVec_post _ q l x) hx.2 M hδ).trans ?_
  refine mul_le_mul_of_nonneg_right ?_ hM
  have := objective_ge n q l x hx
  have h2 := le_abs_self (targetSum q l)
  linarith

theorem solves_objective (n q : ℕ) (sigma : ℕ → ℕ → K) (l x : ℕ → K) (h : K)
    (hx : Solves (biasSet (n + 1) q sigma l h) (biasObjective (n + 1) q l) x) :
    biasObjective (n + 1) q l x = worst n q (weightPart (n + 1) x) l + (|targetSum q l| - targetSum q l) := by
  refine le_antisymm ?_ (objective_ge n q l x hx.1.1)
  rw [← stackOf_objective n q l _ hx.1.1.2]
  refine hx.2 _ ⟨stackOf_mem _ _ _ _ hx.1.1.2, ?_⟩
  rw [varianceExpr_eq, stackOf_weight, ← varianceExpr_eq]
  exact hx.1.2

/-- C149: at a solution, when the weighted horizon `sum_k k l_k` is not negative, the reported bias is exactly the worst case. -/
theorem C149_sharp (p q : ℕ) (hp : 1 ≤ p) (sigma : ℕ → ℕ → K) (l x : ℕ → K) (h M : K) (hM : 0 ≤ M)
    (hT : 0 ≤ targetSum q l) (hx : Solves (biasSet p q sigma l h) (biasObjective p q l) x) :
    IsWorstBias p q (optimalVec p l x) l M (biasValue p q l M x) := by
  obtain ⟨n, rfl⟩ : ∃ n, p = n + 1 := ⟨p - 1, by omega⟩
  unfold biasValue
  rw [solves_objective n q sigma l x h hx, abs_of_nonneg hT, sub_self, add_zero]
  exact isWorst_of n q _ l _ (optimalVec_pre _ l x) (optimalVec_post _ q l x) hx.1.1.2 M hM

/-- C149 (violated): when the weighted horizon is negative, the reported bias is too large by `2 M |sum_k k l_k|`. -/
theorem C149_negative_violated (p q : ℕ) (hp : 1 ≤ p) (sigma : ℕ → ℕ → K) (l x : ℕ → K) (h M : K) (hM : 0 ≤ M)
    (hT : targetSum q l < 0) (hx : Solves (biasSet p q sigma l h) (biasObjective p q l) x) :
    IsWorstBias p q (optimalVec p l x) l M (biasValue p q l M x - 2 * |targetSum q l| * M) := by
  obtain ⟨n, rfl⟩ : ∃ n, p = n + 1 := ⟨p - 1, by omega⟩
  unfold biasValue
  have e : biasObjective (n + 1) q l x * M - 2 * |targetSum q l| * M = worst n q (weightPart (n + 1) x) l * M := by
    rw [solves_objective n q sigma l x h hx, abs_of_neg hT]
    ring
  rw [e]
  exact isWorst_of n q _ l _ (optimalVec_pre _ l x) (optimalVec_post _ q l x) hx.1.1.2 M hM

theorem estBias_trend (n q : ℕ) (a l w : ℕ → K) (c : K) (hpre : ∀ j < n + 1, a j = weightsToL w j)
    (hpost : PostIs (n + 1) q a l) :
    estBias (n + 1) q a l (fun j => c * trend (n + 1) j) (fun _ => 0) =
      (targetSum q l - ∑ i ∈ range (n + 1), w i) * c := by
  have hf : ∀ j, full (n + 1) (fun j => c * (trend (n + 1) j : K)) j = c * ((j : K) - (n + 1 : ℕ)) := by
    intro j
    unfold full
    rcases lt_trichotomy j (n + 1) with hj | hj | hj
    · simp [hj, trend]
    · simp [hj]
    · rw [if_neg (by omega), if_neg (by omega)]
      simp only [trend]
      rw [if_neg (by omega), Nat.cast_sub (by omega)]
      push_cast
      ring
  rw [estBias_split n q a l w _ _ hpre hpost]
  have h1 : D1 (full (n + 1) (fun j => c * (trend (n + 1) j : K))) n = c := by
    unfold D1
    rw [hf, hf]
    push_cast
    ring
  have h2 : ∀ r, D2 (full (n + 1) (fun j => c * (trend (n + 1) j : K))) r = 0 := by
    intro r
    unfold D2
    rw [hf, hf, hf]
    push_cast
    ring
  simp [h1, h2]

theorem trend_mem (p q : ℕ) (c M : K) (hM : 0 ≤ M) : (fun j => c * (trend p j : K)) ∈ DeltaSD p q M := by
  intro r _
  have hf : ∀ j, full p (fun j => c * (trend p j : K)) j = c * ((j : K) - p) := by
    intro j
    unfold full
    rcases lt_trichotomy j p with hj | hj | hj
    · simp [hj, trend]
    · simp [hj]
    · rw [if_neg (by omega), if_neg (by omega)]
      simp only [trend]
      rw [if_neg (by omega), Nat.cast_sub (by omega)]
      push_cast
      ring
  unfold D2
  rw [hf, hf, hf]
  push_cast
  rw [show c * ((r : K) - p) - 2 * (c * ((r : K) + 1 - p)) + c * ((r : K) + 2 - p) = 0 by ring, abs_zero]
  exact hM

/-- C149: no other estimator with the same post-treatment weights and a variance of at most `h^2` has a smaller worst-case
bias than the reported value (minus the excess of `C149_negative_violated`). -/
theorem C149_minimax (p q : ℕ) (hp : 1 ≤ p) (sigma : ℕ → ℕ → K) (l x : ℕ → K) (h M : K) (hM : 0 ≤ M)
    (hs : ∀ i < p, ∀ k < q, sigma i (p + k) = sigma (p + k) i)
    (hx : Solves (biasSet p q sigma l h) (biasObjective p q l) x) (a : ℕ → K) (ha : PostIs p q a l)
    (hv : quadForm (p + q) a sigma ≤ h ^ 2) (B : K) (hB : ∀ δ ∈ DeltaSD p q M, ∀ τ, |estBias p q a l δ τ| ≤ B) :
    biasValue p q l M x - (|targetSum q l| - targetSum q l) * M ≤ B := by
  obtain ⟨n, rfl⟩ : ∃ n, p = n + 1 := ⟨p - 1, by omega⟩
  set w : ℕ → K := fun i => ∑ j ∈ range (i + 1), a j with hw
  have hpre : ∀ j < n + 1, a j = weightsToL w j := by
    intro j _
    unfold weightsToL
    by_cases hj : j = 0
    · simp [hj, hw]
    · rw [if_neg hj, hw]
      simp only
      rw [show j - 1 + 1 = j from by omega, sum_range_succ]
      ring
  have hsum : ∑ i ∈ range (n + 1), w i = targetSum q l := by
    by_contra hne
    have hd : targetSum q l - ∑ i ∈ range (n + 1), w i ≠ 0 := fun h' => hne (sub_eq_zero.1 h').symm
    have h1 := hB _ (trend_mem (n + 1) q ((B + 1) / (targetSum q l - ∑ i ∈ range (n + 1), w i)) M hM) (fun _ => 0)
    rw [estBias_trend n q a l w _ hpre ha, mul_div_cancel₀ _ hd] at h1
    have h2 := le_abs_self (B + 1)
    linarith
  obtain ⟨δ, hδ, hatt⟩ := bias_attained n q a l w hpre ha hsum M hM
  have h1 : worst n q w l * M ≤ B := by
    have := hB δ hδ fun _ => 0
    rw [hatt] at this
    exact (le_abs_self _).trans this
  have h2 : biasObjective (n + 1) q l x ≤ worst n q w l + (|targetSum q l| - targetSum q l) := by
    rw [← stackOf_objective n q l w hsum]
    refine hx.2 _ ⟨stackOf_mem _ _ _ _ hsum, ?_⟩
    rw [varianceExpr_eq, stackOf_weight, affineVariance_eq (n + 1) q a (weightsToL w) l sigma hpre ha hs]
    exact hv
  have h3 := mul_le_mul_of_nonneg_right h2 hM
  unfold biasValue
  linarith

/-- C149 (violated): reversing the sign of the weights should only reverse the sign of the parameter, but the reported bias
grows by `2 M sum_k k l_k`. -/
theorem C149_reflection_violated (p q : ℕ) (hp : 1 ≤ p) (sigma : ℕ → ℕ → K) (l x y : ℕ → K) (h M : K)
    (hT : 0 < targetSum q l) (hx : Solves (biasSet p q sigma l h) (biasObjective p q l) x)
    (hy : Solves (biasSet p q sigma (fun k => -l k) h) (biasObjective p q fun k => -l k) y) :
    biasValue p q (fun k => -l k) M y = biasValue p q l M x + 2 * targetSum q l * M := by
  obtain ⟨n, rfl⟩ : ∃ n, p = n + 1 := ⟨p - 1, by omega⟩
  have hneg : ∀ l : ℕ → K, targetSum q (fun k => -l k) = -targetSum q l := by
    intro l
    simp [targetSum]
  have hsum : ∀ w l : ℕ → K, ∑ i ∈ range (n + 1), w i = targetSum q l →
      ∑ i ∈ range (n + 1), (fun i => -w i) i = targetSum q (fun k => -l k) := by
    intro w l hw
    rw [hneg, ← hw]
    simp
  have hworst : ∀ w l : ℕ → K, worst n q (fun i => -w i) (fun k => -l k) = worst n q w l := by
    intro w l
    unfold worst tailSum
    simp only [sum_neg_distrib, mul_neg, abs_neg]
  have hvar : ∀ w l : ℕ → K, affineVariance (n + 1) q (weightsToL fun i => -w i) (fun k => -l k) sigma =
      affineVariance (n + 1) q (weightsToL w) l sigma := by
    intro w l
    have e : ∀ i, weightsToL (fun i => -w i) i = -weightsToL w i := by
      intro i
      unfold weightsToL
      split_ifs <;> ring
    unfold affineVariance sigmaPost
    simp only [e, neg_mul, mul_neg, neg_neg]
  have key : ∀ (l x y : ℕ → K), Solves (biasSet (n + 1) q sigma l h) (biasObjective (n + 1) q l) x →
      Solves (biasSet (n + 1) q sigma (fun k => -l k) h) (biasObjective (n + 1) q fun k => -l k) y →
      worst n q (weightPart (n + 1) y) (fun k => -l k) ≤ worst n q (weightPart (n + 1) x) l := by
    intro l x y hx hy
    have h1 := hy.2 (stackOf (n + 1) fun i => -weightPart (n + 1) x i)
      ⟨stackOf_mem _ _ _ _ (hsum _ _ hx.1.1.2), by
        rw [varianceExpr_eq, stackOf_weight, hvar, ← varianceExpr_eq]; exact hx.1.2⟩
    rw [solves_objective n q sigma _ y h hy, stackOf_objective n q _ _ (hsum _ _ hx.1.1.2), hworst] at h1
    linarith
  have h1 := key l x y hx hy
  have e : (fun k => -(fun k => -l k) k) = l := by
    funext k
    simp
  have h2 := key (fun k => -l k) y x hy (by rw [e]; exact hx)
  rw [e] at h2
  have h3 := le_antisymm h1 h2
  unfold biasValue
  rw [solves_objective n q sigma _ y h hy, solves_objective n q sigma l x h hx, h3, hneg, abs_neg, abs_of_pos hT]
  ring

/-! ### C151: what moves the interval -/

theorem dotN_opt (p q : ℕ) (l x b : ℕ → K) :
    dotN (p + q) (optimalVec p l x) b = estBias p q (optimalVec p l x) l b (fun _ => 0) := by
  unfold dotN estBias thetaOf betaOf
  simp

/-- C151: adding a linear trend (zero in the reference period) to the coefficients leaves the interval where it is. -/
theorem C151_trend (p q : ℕ) (hp : 1 ≤ p) (l x beta : ℕ → K) (hx : x ∈ weightSet p q l) (c half : K) :
    flciOf p q (optimalVec p l x) (fun j => beta j + c * trend p j) half = flciOf p q (optimalVec p l x) beta half := by
  obtain ⟨n, rfl⟩ : ∃ n, p = n + 1 := ⟨p - 1, by omega⟩
  have h := estBias_trend n q (optimalVec (n + 1) l x) l _ c (optimalVec_pre _ l x) (optimalVec_post _ q l x)
  rw [hx.2, sub_self, zero_mul, ← dotN_opt] at h
  have e : dotN (n + 1 + q) (optimalVec (n + 1) l x) (fun j => beta j + c * trend (n + 1) j) =
      dotN (n + 1 + q) (optimalVec (n + 1) l x) beta := by
    have : dotN (n + 1 + q) (optimalVec (n + 1) l x) (fun j => beta j + c * trend (n + 1) j) =
        dotN (n + 1 + q) (optimalVec (n + 1) l x) beta +
          dotN (n + 1 + q) (optimalVec (n + 1) l x) (fun j => c * trend (n + 1) j) := by
      unfold dotN
      rw [← sum_add_distrib]
      exact sum_congr rfl fun j _ => by ring
    rw [this, h, add_zero]
  unfold flciOf
  rw [e]

/-- C151: adding effects to the post-treatment coefficients moves both ends by exactly the change of the parameter. -/
theorem C151_shift (p q : ℕ) (l x beta τ : ℕ → K) (half : K) :
    flciOf p q (optimalVec p l x) (fun j => if j < p then beta j else beta j + τ (j - p)) half =
      ((flciOf p q (optimalVec p l x) beta half).1 + thetaOf q l τ,
        (flciOf p q (optimalVec p l x) beta half).2 + thetaOf q l τ) := by
  have e : dotN (p + q) (optimalVec p l x) (fun j => if j < p then beta j else beta j + τ (j - p)) =
      dotN (p + q) (optimalVec p l x) beta + thetaOf q l τ := by
    unfold dotN thetaOf
    rw [sum_range_add, sum_range_add, add_assoc, ← sum_add_distrib]
    congr 1
    · exact sum_congr rfl fun j hj => by beta_reduce; rw [if_pos (mem_range.1 hj)]
    · refine sum_congr rfl fun k hk => ?_
      beta_reduce
      rw [if_neg (by omega), optimalVec_post p q l x k (mem_range.1 hk), Nat.add_sub_cancel_left]
      ring
  unfold flciOf
  rw [e]
  simp only [Prod.mk.injEq]
  constructor <;> ring

/-! ### Non-vacuity: two pre- and two post-treatment periods -/

/-- Independent coefficients of variance one. -/
def exSigma (i j : ℕ) : ℚ := if i = j then 1 else 0

/-- The average effect. -/
def exL : ℕ → ℚ := fun _ => 1 / 2

theorem ex_var : minBiasVariance 2 2 exSigma exL = 11 / 4 := by
  simp [minBiasVariance, affineVariance, sigmaPost, sum_range_succ, minBiasWeights, weightsToL, targetSum, exSigma, exL]
  norm_num

theorem ex_solves : Solves (biasSet 2 2 exSigma exL 3) (biasObjective 2 2 exL) (stackOf 2 (minBiasWeights 2 2 exL)) :=
  C150_min_bias 2 2 (by norm_num) _ _ _ (by rw [ex_var]; norm_num)

theorem ex_var_neg : minBiasVariance 2 2 exSigma (fun k => -exL k) = 11 / 4 := by
  simp [minBiasVariance, affineVariance, sigmaPost, sum_range_succ, minBiasWeights, weightsToL, targetSum, exSigma, exL]
  norm_num

theorem ex_solves_neg : Solves (biasSet 2 2 exSigma (fun k => -exL k) 3) (biasObjective 2 2 fun k => -exL k)
    (stackOf 2 (minBiasWeights 2 2 fun k => -exL k)) :=
  C150_min_bias 2 2 (by norm_num) _ _ _ (by rw [ex_var_neg]; norm_num)

theorem exL_target : targetSum 2 exL = 3 / 2 := by
  simp [targetSum, sum_range_succ, exL]
  norm_num

theorem ex_value : biasValue 2 2 exL (1 / 10) (stackOf 2 (minBiasWeights 2 2 exL)) = 1 / 5 := by
  unfold biasValue
  rw [stackOf_objective 1 2 exL _ (minBias_sum 1 2 exL), minBias_worst, exL_target]
  simp [sum_range_succ, tailSum, exL, abs_of_pos]
  norm_num [abs_of_pos]

/-- The estimator of the example has worst-case bias `1/5` for `M = 1/10`; the interval for the reversed parameter uses
`1/2`, although the reversed estimator has the same worst case. -/
example : IsWorstBias 2 2 (optimalVec 2 exL (stackOf 2 (minBiasWeights 2 2 exL))) exL (1 / 10) (1 / 5) ∧
    biasValue 2 2 (fun k => -exL k) (1 / 10) (stackOf 2 (minBiasWeights 2 2 fun k => -exL k)) = 1 / 2 := by
  refine ⟨?_, ?_⟩
  · have := C149_sharp 2 2 (by norm_num) exSigma exL _ 3 (1 / 10) (by norm_num) (by rw [exL_target]; norm_num) ex_solves
    rwa [ex_value] at this
  · have := C149_reflection_violated 2 2 (by norm_num) exSigma exL _ _ 3 (1 / 10) (by rw [exL_target]; norm_num) ex_solves
      ex_solves_neg
    rw [this, ex_value, exL_target]
    norm_num

/-- The reversed weights meet the hypotheses of `C149_negative_violated`: the worst case is `1/5`, the reported bias `1/2`. -/
example : IsWorstBias 2 2 (optimalVec 2 (fun k => -exL k) (stackOf 2 (minBiasWeights 2 2 fun k => -exL k))) (fun k => -exL k)
    (1 / 10) (1 / 5) := by
  have hT : targetSum 2 (fun k => -exL k) = -(3 / 2) := by
    simp [targetSum, sum_range_succ, exL]
    norm_num
  have := C149_negative_violated 2 2 (by norm_num) exSigma (fun k => -exL k) _ 3 (1 / 10) (by norm_num)
    (by rw [hT]; norm_num) ex_solves_neg
  have h2 := C149_reflection_violated 2 2 (by norm_num) exSigma exL _ _ 3 (1 / 10) (by rw [exL_target]; norm_num) ex_solves
    ex_solves_neg
  rw [h2, ex_value, exL_target, hT] at this
  norm_num [abs_of_pos] at this ⊢
  exact this

/-- The interval of the example at `beta_hat = (1, 2, 5, 7)` with half-length `1`, before and after adding a trend of slope 4. -/
example : flciOf 2 2 (optimalVec 2 exL (stackOf 2 (minBiasWeights 2 2 exL)))
      (fun j => (if j = 0 then 1 else if j = 1 then 2 else if j = 2 then 5 else 7) + 4 * trend 2 j) 1 = (8, 10) := by
  rw [C151_trend 2 2 (by norm_num) exL _ _ ex_solves.1.1]
  simp [flciOf, dotN, sum_range_succ, optimalVec, stackOf, weightPart, weightsToL, minBiasWeights, exL_target, exL]
  norm_num

/-- A competitor with a smaller variance: all the weight on the first pre-treatment period has the larger worst case. -/
example (B : ℚ) (hB : ∀ δ ∈ DeltaSD 2 2 (1 / 10 : ℚ), ∀ τ,
    |estBias 2 2 (fun j => if j = 0 then 3 / 4 else if j = 1 then 0 else 1 / 2) exL δ τ| ≤ B) : 1 / 5 ≤ B := by
  have := C149_minimax 2 2 (by norm_num) exSigma exL _ 3 (1 / 10) (by norm_num)
    (fun i _ k _ => by simp only [exSigma]; exact if_congr eq_comm rfl rfl) ex_solves
    (fun j => if j = 0 then 3 / 4 else if j = 1 then 0 else 1 / 2) (fun k _ => by simp [exL]; omega)
    (by simp [quadForm, sum_range_succ, exSigma]; norm_num) B hB
  rw [ex_value, exL_target] at this
  norm_num [abs_of_pos] at this ⊢
  exact this

end Verif.Honest
