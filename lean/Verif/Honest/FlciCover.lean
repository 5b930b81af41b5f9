import Verif.Honest.FlciProps
import Verif.Honest.FoldedNormal
import Mathlib.Probability.HasLaw

/-!
# C150 (binding constraint) and C153: coverage of the fixed-length confidence interval
-/

set_option linter.unusedSectionVars false
set_option linter.unusedSimpArgs false

namespace Verif.Honest

open Finset MeasureTheory ProbabilityTheory Filter Topology

/-! ### The variance constraint binds inside the search range -/

theorem worst_convex (n q : ℕ) (l w v : ℕ → ℝ) (t : ℝ) (h0 : 0 ≤ t) (h1 : t ≤ 1) :
    worst n q (fun i => (1 - t) * w i + t * v i) l ≤ (1 - t) * worst n q w l + t * worst n q v l := by
  unfold worst
  have : ∑ j ∈ range n, |∑ i ∈ range (j + 1), ((1 - t) * w i + t * v i)| ≤
      (1 - t) * ∑ j ∈ range n, |∑ i ∈ range (j + 1), w i| + t * ∑ j ∈ range n, |∑ i ∈ range (j + 1), v i| := by
    rw [mul_sum, mul_sum, ← sum_add_distrib]
    refine sum_le_sum fun j _ => ?_
    rw [sum_add_distrib, ← mul_sum, ← mul_sum]
    refine (abs_add_le _ _).trans ?_
    rw [abs_mul, abs_mul, abs_of_nonneg h0, abs_of_nonneg (by linarith : 0 ≤ 1 - t)]
  linarith

theorem affineVariance_cont (p q : ℕ) (sigma : ℕ → ℕ → ℝ) (l w v : ℕ → ℝ) :
    Continuous fun t : ℝ => affineVariance p q (weightsToL fun i => (1 - t) * w i + t * v i) l sigma := by
  have h : ∀ i, Continuous fun t : ℝ => weightsToL (fun i => (1 - t) * w i + t * v i) i := by
    intro i
    unfold weightsToL
    split_ifs <;> fun_prop
  unfold affineVariance
  refine Continuous.add (Continuous.add ?_ ?_) continuous_const
  · exact continuous_finsetSum _ fun i _ => continuous_finsetSum _ fun j _ =>
      ((h i).mul continuous_const).mul (h j)
  · exact continuous_const.mul (continuous_finsetSum _ fun i _ => continuous_finsetSum _ fun j _ =>
      ((h i).mul continuous_const).mul continuous_const)

/-- C150: for every `h` up to the value of `get_min_bias_h`, a solution of the program uses up the whole variance `h^2`: the
half-length, computed from `h`, refers to the actual standard deviation of the estimator. -/
theorem C150_binding (p q : ℕ) (hp : 1 ≤ p) (sigma : ℕ → ℕ → ℝ) (l x : ℕ → ℝ) (h : ℝ)
    (hh : h ^ 2 ≤ minBiasVariance p q sigma l) (hx : Solves (biasSet p q sigma l h) (biasObjective p q l) x) :
    varianceExpr p q sigma l x = h ^ 2 := by
  obtain ⟨n, rfl⟩ : ∃ n, p = n + 1 := ⟨p - 1, by omega⟩
  by_contra hne
  have hlt : varianceExpr (n + 1) q sigma l x < h ^ 2 := lt_of_le_of_ne hx.1.2 hne
  set w := weightPart (n + 1) x with hw
  set v := minBiasWeights (n + 1) q l with hv
  have hsw : ∑ i ∈ range (n + 1), w i = targetSum q l := hx.1.1.2
  have hworst : worst n q v l < worst n q w l := by
    rw [hv, minBias_worst]
    unfold worst
    rcases (sum_nonneg fun j (_ : j ∈ range n) => abs_nonneg (∑ i ∈ range (j + 1), w i)).eq_or_lt with h0 | h0
    · exfalso
      have hz : ∀ j < n, ∑ i ∈ range (j + 1), w i = 0 := fun j hj =>
        abs_eq_zero.1 ((sum_eq_zero_iff_of_nonneg fun _ _ => abs_nonneg _).1 h0.symm j (mem_range.2 hj))
      have hwz : ∀ j < n, w j = 0 := by
        intro j hj
        have h1 := hz j hj
        rw [sum_range_succ] at h1
        rcases Nat.eq_zero_or_pos j with hj0 | hj0
        · subst hj0; simpa using h1
        · have h2 := hz (j - 1) (by omega)
          rw [show j - 1 + 1 = j from by omega] at h2
          linarith
      have hwv : ∀ i < n + 1, w i = v i := by
        intro i hi
        rcases Nat.lt_succ_iff_lt_or_eq.1 hi with hi | hi
        · rw [hwz i hi, hv]; simp [minBiasWeights, show i ≠ n from by omega]
        · subst hi
          rw [sum_range_succ, sum_eq_zero (fun j hj => hwz j (mem_range.1 hj)), zero_add] at hsw
          rw [hsw, hv]; simp [minBiasWeights]
      have hwl : ∀ i < n + 1, weightsToL w i = weightsToL v i := by
        intro i hi
        unfold weightsToL
        split_ifs with h0
        · exact hwv 0 (by omega)
        · rw [hwv i hi, hwv (i - 1) (by omega)]
      have : varianceExpr (n + 1) q sigma l x = minBiasVariance (n + 1) q sigma l := by
        rw [varianceExpr_eq]
        unfold minBiasVariance affineVariance
        congr 1
        congr 1
        · exact sum_congr rfl fun i hi => sum_congr rfl fun j hj => by
            rw [hwl i (mem_range.1 hi), hwl j (mem_range.1 hj)]
        · congr 1
          exact sum_congr rfl fun i hi => sum_congr rfl fun j _ => by rw [hwl i (mem_range.1 hi)]
      linarith
    · linarith
  have hcont := affineVariance_cont (n + 1) q sigma l w v
  have hzero : affineVariance (n + 1) q (weightsToL fun i => (1 - (0 : ℝ)) * w i + 0 * v i) l sigma < h ^ 2 := by
    have e : (fun i => (1 - (0 : ℝ)) * w i + 0 * v i) = w := by funext i; ring
    rw [e, ← varianceExpr_eq]
    exact hlt
  have hev := hcont.continuousAt.eventually (gt_mem_nhds hzero)
  obtain ⟨ε, hε, hball⟩ := Metric.eventually_nhds_iff.1 hev
  set t := min (ε / 2) 1 with ht
  have ht0 : 0 < t := lt_min (by linarith) one_pos
  have ht1 : t ≤ 1 := min_le_right _ _
  have htv := hball (y := t) (by
    rw [Real.dist_eq, sub_zero, abs_of_pos ht0]
    exact (min_le_left _ _).trans_lt (by linarith))
  have hsum : ∑ i ∈ range (n + 1), ((1 - t) * w i + t * v i) = targetSum q l := by
    rw [sum_add_distrib, ← mul_sum, ← mul_sum, hsw, hv, minBias_sum]
    ring
  have hopt := hx.2 (stackOf (n + 1) fun i => (1 - t) * w i + t * v i) ⟨stackOf_mem _ _ _ _ hsum, by
    rw [varianceExpr_eq, stackOf_weight]
    exact htv.le⟩
  rw [stackOf_objective n q l _ hsum, solves_objective n q sigma l x h hx] at hopt
  have hc := worst_convex n q l w v t ht0.le ht1
  have : t * worst n q v l < t * worst n q w l := mul_lt_mul_of_pos_left hworst ht0
  linarith

/-! ### Coverage -/

variable {Ω : Type*} [MeasurableSpace Ω]

/-- The coefficients are jointly normal with mean `beta` and covariance `sigma`: every linear combination is normal. -/
def GaussianCoefs (P : Measure Ω) (n : ℕ) (betaHat : Ω → ℕ → ℝ) (beta : ℕ → ℝ) (sigma : ℕ → ℕ → ℝ) : Prop :=
  ∀ c : ℕ → ℝ, P.map (fun ω => ∑ j ∈ range n, c j * betaHat ω j) =
    gaussianReal (∑ j ∈ range n, c j * beta j) (quadForm n c sigma).toNNReal

/-- The probability that the interval around `a' beta_hat` covers `theta` is that of `|N(bias, variance)| <= half`. -/
theorem cover_eq (P : Measure Ω) (p q : ℕ) (betaHat : Ω → ℕ → ℝ) (sigma : ℕ → ℕ → ℝ) (δ τ l a : ℕ → ℝ) (half s : ℝ)
    (hG : GaussianCoefs P (p + q) betaHat (betaOf p δ τ) sigma) (hs : quadForm (p + q) a sigma = s ^ 2) :
    P.real {ω | thetaOf q l τ ∈ Set.Icc (flciOf p q a (betaHat ω) half).1 (flciOf p q a (betaHat ω) half).2} =
      absNormal (estBias p q a l δ τ) s half := by
  have h1 := hG a
  have hm : AEMeasurable (fun ω => ∑ j ∈ range (p + q), a j * betaHat ω j) P :=
    aemeasurable_of_map_neZero (by rw [h1]; infer_instance)
  have hset : {ω | thetaOf q l τ ∈ Set.Icc (flciOf p q a (betaHat ω) half).1 (flciOf p q a (betaHat ω) half).2} =
      (fun ω => ∑ j ∈ range (p + q), a j * betaHat ω j) ⁻¹' Set.Icc (thetaOf q l τ - half) (thetaOf q l τ + half) := by
    ext ω
    simp only [Set.mem_setOf_eq, flciOf, dotN, Set.mem_Icc, Set.mem_preimage]
    constructor <;> rintro ⟨h1, h2⟩ <;> constructor <;> linarith
  rw [hset]
  have h2 : P.real ((fun ω => ∑ j ∈ range (p + q), a j * betaHat ω j) ⁻¹'
      Set.Icc (thetaOf q l τ - half) (thetaOf q l τ + half)) =
      (P.map fun ω => ∑ j ∈ range (p + q), a j * betaHat ω j).real
        (Set.Icc (thetaOf q l τ - half) (thetaOf q l τ + half)) := by
    unfold Measure.real
    rw [Measure.map_apply_of_aemeasurable hm measurableSet_Icc]
  rw [h2, h1, hs]
  have h3 : gaussianReal (estBias p q a l δ τ) (s ^ 2).toNNReal =
      (gaussianReal (∑ j ∈ range (p + q), a j * betaOf p δ τ j) (s ^ 2).toNNReal).map (· - thetaOf q l τ) := by
    rw [gaussianReal_map_sub_const]
    rfl
  unfold absNormal
  rw [h3, map_measureReal_apply (by fun_prop) measurableSet_Icc]
  congr 1
  ext t
  simp only [Set.mem_Icc, Set.mem_preimage]
  constructor <;> rintro ⟨h1, h2⟩ <;> constructor <;> linarith

/-- Half-length `folded_normal_quantile(1 - alpha, mu=max_bias / h, sd=1) * h`, `fixed_length_ci.py:699,719,793`. -/
def IsHalfLength (alpha maxBias h half : ℝ) : Prop := ∃ c, FoldedQuantile (1 - alpha) (maxBias / h) 1 c ∧ half = c * h

theorem half_prob (alpha B h half : ℝ) (hh : 0 < h) (hc : IsHalfLength alpha B h half) :
    0 ≤ half ∧ absNormal B h half = 1 - alpha := by
  obtain ⟨c, hq, rfl⟩ := hc
  obtain ⟨h1, h2⟩ := C152_quantile _ _ _ _ hq
  have h3 : 0 ≤ c * h := mul_nonneg h1 hh.le
  refine ⟨h3, ?_⟩
  rw [absNormal_eq _ _ _ hh h3, ← h2, absNormal_eq _ _ _ one_pos h1]
  unfold foldedCdf
  congr 3 <;> field_simp

/-- C153: with normal coefficients the interval covers the parameter with probability at least `1 - alpha`, whatever the effects
and whatever the violation in `Delta^SD(M)`, for every `h` of the search range and every level. -/
theorem C153_coverage (P : Measure Ω) (p q : ℕ) (hp : 1 ≤ p) (betaHat : Ω → ℕ → ℝ) (sigma : ℕ → ℕ → ℝ) (l x : ℕ → ℝ)
    (M h alpha half : ℝ) (hM : 0 ≤ M) (hs : ∀ i < p, ∀ k < q, sigma i (p + k) = sigma (p + k) i) (hh : 0 < h)
    (hr : h ^ 2 ≤ minBiasVariance p q sigma l) (hx : Solves (biasSet p q sigma l h) (biasObjective p q l) x)
    (hc : IsHalfLength alpha (biasValue p q l M x) h half) (δ τ : ℕ → ℝ) (hδ : δ ∈ DeltaSD p q M)
    (hG : GaussianCoefs P (p + q) betaHat (betaOf p δ τ) sigma) :
    1 - alpha ≤ P.real {ω | thetaOf q l τ ∈ Set.Icc (flciOf p q (optimalVec p l x) (betaHat ω) half).1
      (flciOf p q (optimalVec p l x) (betaHat ω) half).2} := by
  have hv : quadForm (p + q) (optimalVec p l x) sigma = h ^ 2 := by
    rw [← C150_variance p q sigma l x hs, C150_binding p q hp sigma l x h hr hx]
  obtain ⟨h1, h2⟩ := half_prob _ _ _ _ hh hc
  rw [cover_eq P p q betaHat sigma δ τ l _ half h hG hv, ← h2]
  refine absNormal_anti half h h1 hh _ _ ?_
  exact (C149_sound p q hp l x M hx.1.1 δ hM hδ τ).trans (le_abs_self _)

/-- C153: the level is attained: if the weighted horizon is not negative, some violation in `Delta^SD(M)` gives exactly
`1 - alpha`, so no shorter interval around this estimator would do. -/
theorem C153_exact (p q : ℕ) (hp : 1 ≤ p) (sigma : ℕ → ℕ → ℝ) (l x : ℕ → ℝ)
    (M h alpha half : ℝ) (hM : 0 ≤ M) (hs : ∀ i < p, ∀ k < q, sigma i (p + k) = sigma (p + k) i) (hh : 0 < h)
    (hr : h ^ 2 ≤ minBiasVariance p q sigma l) (hT : 0 ≤ targetSum q l)
    (hx : Solves (biasSet p q sigma l h) (biasObjective p q l) x)
    (hc : IsHalfLength alpha (biasValue p q l M x) h half) : ∃ δ ∈ DeltaSD p q M, ∃ τ : ℕ → ℝ,
      ∀ (P : Measure Ω) (betaHat : Ω → ℕ → ℝ), GaussianCoefs P (p + q) betaHat (betaOf p δ τ) sigma →
        P.real {ω | thetaOf q l τ ∈ Set.Icc (flciOf p q (optimalVec p l x) (betaHat ω) half).1
          (flciOf p q (optimalVec p l x) (betaHat ω) half).2} = 1 - alpha := by
  obtain ⟨δ, hδ, τ, e⟩ := (C149_sharp p q hp sigma l x h M hM hT hx).1
  refine ⟨δ, hδ, τ, fun P betaHat hG => ?_⟩
  have hv : quadForm (p + q) (optimalVec p l x) sigma = h ^ 2 := by
    rw [← C150_variance p q sigma l x hs, C150_binding p q hp sigma l x h hr hx]
  obtain ⟨h1, h2⟩ := half_prob _ _ _ _ hh hc
  rw [cover_eq P p q betaHat sigma δ τ l _ half h hG hv, ← h2]
  have hB : 0 ≤ biasValue p q l M x := by rw [e]; exact abs_nonneg _
  refine le_antisymm (absNormal_anti half h h1 hh _ _ ?_) (absNormal_anti half h h1 hh _ _ ?_)
  · rw [e, abs_abs]
  · rw [abs_of_nonneg hB, e]

/-- C153: for levels `alpha <= 1/2` any feasible point of the program is enough (an inaccurate solution included), and `h` may
exceed the actual standard deviation. -/
theorem C153_feasible (P : Measure Ω) (p q : ℕ) (hp : 1 ≤ p) (betaHat : Ω → ℕ → ℝ) (sigma : ℕ → ℕ → ℝ) (l x : ℕ → ℝ)
    (M h alpha half : ℝ) (hM : 0 ≤ M) (hs : ∀ i < p, ∀ k < q, sigma i (p + k) = sigma (p + k) i) (hh : 0 < h)
    (hpsd : 0 ≤ quadForm (p + q) (optimalVec p l x) sigma) (ha : alpha ≤ 1 / 2)
    (hx : x ∈ biasSet p q sigma l h)
    (hc : IsHalfLength alpha (biasValue p q l M x) h half) (δ τ : ℕ → ℝ) (hδ : δ ∈ DeltaSD p q M)
    (hG : GaussianCoefs P (p + q) betaHat (betaOf p δ τ) sigma) :
    1 - alpha ≤ P.real {ω | thetaOf q l τ ∈ Set.Icc (flciOf p q (optimalVec p l x) (betaHat ω) half).1
      (flciOf p q (optimalVec p l x) (betaHat ω) half).2} := by
  have hv : quadForm (p + q) (optimalVec p l x) sigma = Real.sqrt (quadForm (p + q) (optimalVec p l x) sigma) ^ 2 :=
    (Real.sq_sqrt hpsd).symm
  have hle : Real.sqrt (quadForm (p + q) (optimalVec p l x) sigma) ≤ h := by
    have := hx.2
    rw [C150_variance p q sigma l x hs] at this
    exact (Real.sqrt_le_sqrt this).trans (by rw [Real.sqrt_sq hh.le])
  obtain ⟨h1, h2⟩ := half_prob _ _ _ _ hh hc
  have hb := C149_sound p q hp l x M hx.1 δ hM hδ τ
  have hB : 0 ≤ biasValue p q l M x := (abs_nonneg _).trans hb
  have hhalf : biasValue p q l M x ≤ half := by
    by_contra hcon
    rw [not_le] at hcon
    rw [absNormal_eq _ _ _ hh h1] at h2
    unfold foldedCdf at h2
    have h3 : Phi ((half - biasValue p q l M x) / h) < Phi 0 :=
      phi_strictMono (div_neg_of_neg_of_pos (by linarith) hh)
    have h4 := phi_nonneg ((-half - biasValue p q l M x) / h)
    rw [phi_zero] at h3
    linarith
  rw [cover_eq P p q betaHat sigma δ τ l _ half _ hG hv, ← h2]
  refine le_trans (absNormal_anti half h h1 hh _ _ (hb.trans (le_abs_self _))) ?_
  exact absNormal_spread half _ _ _ (hb.trans hhalf) (Real.sqrt_nonneg _) hle hh

/-! ### Non-vacuity: perfectly correlated coefficients `beta_j + s_j Z` -/

theorem ex_gaussian (n : ℕ) (beta s : ℕ → ℝ) :
    GaussianCoefs (gaussianReal 0 1) n (fun z j => beta j + s j * z) beta (fun i j => s i * s j) := by
  intro c
  have e : (fun z : ℝ => ∑ j ∈ range n, c j * (beta j + s j * z)) =
      fun z => (∑ j ∈ range n, c j * beta j) + (∑ j ∈ range n, c j * s j) * z := by
    funext z
    rw [sum_mul, ← sum_add_distrib]
    exact sum_congr rfl fun j _ => by ring
  have hq : quadForm n c (fun i j => s i * s j) = (∑ j ∈ range n, c j * s j) ^ 2 := by
    unfold quadForm
    rw [sq, sum_mul]
    refine sum_congr rfl fun i _ => ?_
    rw [mul_sum]
    exact sum_congr rfl fun j _ => by ring
  rw [e, hq]
  set m := ∑ j ∈ range n, c j * beta j
  set t := ∑ j ∈ range n, c j * s j
  have e1 := gaussianReal_map_const_mul (μ := 0) (v := 1) t
  have e2 := gaussianReal_map_const_add (μ := t * 0) (v := NNReal.mk (t ^ 2) (sq_nonneg _) * 1) m
  rw [← e1, Measure.map_map (by fun_prop) (by fun_prop)] at e2
  have e3 : t * 0 + m = m := by ring
  have e4 : (NNReal.mk (t ^ 2) (sq_nonneg _) * 1 : NNReal) = (t ^ 2).toNNReal := by
    rw [mul_one]
    ext
    simp [Real.coe_toNNReal _ (sq_nonneg t)]
  rw [e3, e4] at e2
  exact e2

/-- One pre- and one post-treatment period, `beta_hat = (Z, 1 + 2 Z)`, no violation, `M = 1/10`: the hypotheses of the coverage
theorem hold with `h = 3` and a half-length exists. -/
example : ∃ half, 19 / 20 ≤ (gaussianReal 0 1).real {z | thetaOf 1 (fun _ => 1) (fun _ => (1 : ℝ)) ∈
    Set.Icc (flciOf 1 1 (optimalVec 1 (fun _ => 1) (stackOf 1 (minBiasWeights 1 1 fun _ => 1)))
      (fun j => betaOf 1 (fun _ => 0) (fun _ => 1) j + (if j = 0 then 1 else 2) * z) half).1
    (flciOf 1 1 (optimalVec 1 (fun _ => 1) (stackOf 1 (minBiasWeights 1 1 fun _ => 1)))
      (fun j => betaOf 1 (fun _ => 0) (fun _ => 1) j + (if j = 0 then 1 else 2) * z) half).2} := by
  set sg : ℕ → ℕ → ℝ := fun i j => (if i = 0 then 1 else 2) * (if j = 0 then 1 else 2) with hsg
  have hvar : minBiasVariance 1 1 sg (fun _ => (1 : ℝ)) = 9 := by
    simp [minBiasVariance, affineVariance, sigmaPost, minBiasWeights, weightsToL, targetSum, sg]
    norm_num
  have hx := C150_min_bias 1 1 le_rfl sg (fun _ => (1 : ℝ)) 3 (by rw [hvar]; norm_num)
  obtain ⟨c, hc, _⟩ := C152_exists (1 - 1 / 20)
    (biasValue 1 1 (fun _ => 1) (1 / 10) (stackOf 1 (minBiasWeights 1 1 fun _ => (1 : ℝ))) / 3) 1
    (by norm_num) (by norm_num) one_pos
  refine ⟨c * 3, ?_⟩
  have := C153_coverage (gaussianReal 0 1) 1 1 le_rfl
    (fun z j => betaOf 1 (fun _ => 0) (fun _ => 1) j + (if j = 0 then 1 else 2) * z) sg (fun _ => 1)
    (stackOf 1 (minBiasWeights 1 1 fun _ => 1)) (1 / 10) 3 (1 / 20) (c * 3) (by norm_num) (fun i _ k _ => mul_comm _ _)
    (by norm_num) (by rw [hvar]; norm_num) hx ⟨c, hc, rfl⟩ (fun _ => 0) (fun _ => 1)
    (by
      intro r _
      have hf : ∀ j, full 1 (fun _ => (0 : ℝ)) j = 0 := by
        intro j
        unfold full
        split_ifs <;> rfl
      simp [D2, hf])
    (ex_gaussian 2 _ _)
  norm_num at this ⊢
  exact this

end Verif.Honest
