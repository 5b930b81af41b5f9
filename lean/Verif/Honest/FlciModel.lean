import Verif.Honest.Spec

/-!
# Fixed-length confidence interval (`didhonest/fixed_length_ci.py`): executable model

`p = n_pre_periods`, `q = n_post_periods`, `l = post_period_weights`; `sigma i j` is read below `p + q`.  The convex solver is
an oracle with the contract `Solves`; arithmetic is exact.
-/

namespace Verif.Honest

open Finset

variable {K : Type*}

section
variable [Ring K]

/-- `np.dot(np.arange(1, n_post_periods + 1), post_period_weights)`, `fixed_length_ci.py:257,271,601`. -/
def targetSum (q : ℕ) (l : ℕ → K) : K := ∑ k ∈ range q, ((k : K) + 1) * l k

/-- `np.tril(np.ones((p, p))) @ weight_vector`, `fixed_length_ci.py:265,268`. -/
def trilMul (p : ℕ) (w : ℕ → K) (i : ℕ) : K := ∑ j ∈ range p, (if j ≤ i then 1 else 0) * w j

/-- `_weights_to_l`, `fixed_length_ci.py:855-858`. -/
def weightsToL (w : ℕ → K) (i : ℕ) : K := if i = 0 then w 0 else w i - w (i - 1)

/-- `_create_diff_matrix`, `fixed_length_ci.py:861-866`. -/
def diffMat (i j : ℕ) : K := if i = j then 1 else if j + 1 = i then -1 else 0

/-- `np.hstack([np.zeros((p, p)), weights_to_levels_matrix])`, `fixed_length_ci.py:276,378`. -/
def stackedT (p i j : ℕ) : K := if j < p then 0 else diffMat i (j - p)

/-- `sigma_post`, `fixed_length_ci.py:280,382,476`. -/
def sigmaPost (p q : ℕ) (sigma : ℕ → ℕ → K) (l : ℕ → K) : K :=
  ∑ k ∈ range q, ∑ m ∈ range q, l k * sigma (p + k) (p + m) * l m

/-- `A_quadratic`, `fixed_length_ci.py:282,384`. -/
def aQuad (p : ℕ) (sigma : ℕ → ℕ → K) (j k : ℕ) : K :=
  ∑ i ∈ range p, ∑ m ∈ range p, stackedT p i j * sigma i m * stackedT p m k

/-- `A_linear`, `fixed_length_ci.py:283,385`. -/
def aLin (p q : ℕ) (sigma : ℕ → ℕ → K) (l : ℕ → K) (j : ℕ) : K :=
  2 * ∑ i ∈ range p, stackedT p i j * ∑ k ∈ range q, sigma i (p + k) * l k

/-- `variance_expr` at the stacked variables, `fixed_length_ci.py:285,387`. -/
def varianceExpr (p q : ℕ) (sigma : ℕ → ℕ → K) (l x : ℕ → K) : K :=
  (∑ j ∈ range (2 * p), ∑ k ∈ range (2 * p), x j * aQuad p sigma j k * x k) +
    (∑ j ∈ range (2 * p), aLin p q sigma l j * x j) + sigmaPost p q sigma l

/-- `affine_variance`, `fixed_length_ci.py:474-480`. -/
def affineVariance (p q : ℕ) (lpre lpost : ℕ → K) (sigma : ℕ → ℕ → K) : K :=
  (∑ i ∈ range p, ∑ j ∈ range p, lpre i * sigma i j * lpre j) +
    2 * (∑ i ∈ range p, ∑ k ∈ range q, lpre i * sigma i (p + k) * lpost k) + sigmaPost p q sigma lpost

variable [LinearOrder K]

/-- `bias_constant`, `fixed_length_ci.py:254-257`. -/
def biasConstant (q : ℕ) (l : ℕ → K) : K :=
  (∑ s ∈ range q, |∑ k ∈ range (s + 1), ((k : K) + 1) * l (q - (s + 1) + k)|) - targetSum q l

/-- The objective of `maximize_bias`, `fixed_length_ci.py:259`. -/
def biasObjective (p q : ℕ) (l x : ℕ → K) : K := biasConstant q l + ∑ i ∈ range p, x i

/-- `weight_vector = stacked_vars[n_pre_periods:]`, `fixed_length_ci.py:264,375`. -/
def weightPart (p : ℕ) (x : ℕ → K) (i : ℕ) : K := x (p + i)

/-- The constraints of `minimize_variance`, `fixed_length_ci.py:392-398`. -/
def weightSet (p q : ℕ) (l : ℕ → K) : Set (ℕ → K) :=
  {x | (∀ i < p, -x i ≤ trilMul p (weightPart p x) i ∧ trilMul p (weightPart p x) i ≤ x i) ∧
    ∑ i ∈ range p, weightPart p x i = targetSum q l}

/-- The constraints of `maximize_bias`, `fixed_length_ci.py:267-286`. -/
def biasSet (p q : ℕ) (sigma : ℕ → ℕ → K) (l : ℕ → K) (h : K) : Set (ℕ → K) :=
  {x | x ∈ weightSet p q l ∧ varianceExpr p q sigma l x ≤ h ^ 2}

/-- Contract of the convex solver (`problem.solve`, status `optimal`): the point is feasible and minimises the objective. -/
def Solves (S : Set (ℕ → K)) (f : (ℕ → K) → K) (x : ℕ → K) : Prop := x ∈ S ∧ ∀ y ∈ S, f x ≤ f y

/-- `value` returned by `maximize_bias`, `fixed_length_ci.py:297`. -/
def biasValue (p q : ℕ) (l : ℕ → K) (M : K) (x : ℕ → K) : K := biasObjective p q l x * M

/-- `optimal_vec`: `np.concatenate([_weights_to_l(optimal_w), post_period_weights])`, `fixed_length_ci.py:294-295,725`. -/
def optimalVec (p : ℕ) (l x : ℕ → K) (j : ℕ) : K := if j < p then weightsToL (weightPart p x) j else l (j - p)

/-- The reported interval, `fixed_length_ci.py:167-169`. -/
def flciOf (p q : ℕ) (vec betaHat : ℕ → K) (half : K) : K × K :=
  (dotN (p + q) vec betaHat - half, dotN (p + q) vec betaHat + half)

/-- The weights of `get_min_bias_h`, `fixed_length_ci.py:600-601`: everything on the last pre-treatment period. -/
def minBiasWeights (p q : ℕ) (l : ℕ → K) (i : ℕ) : K := if i + 1 = p then targetSum q l else 0

/-- The variance whose root `get_min_bias_h` returns, `fixed_length_ci.py:603-604`. -/
def minBiasVariance (p q : ℕ) (sigma : ℕ → ℕ → K) (l : ℕ → K) : K :=
  affineVariance p q (weightsToL (minBiasWeights p q l)) l sigma

end

end Verif.Honest
