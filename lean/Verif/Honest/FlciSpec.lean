import Verif.Honest.Spec

/-!
# Fixed-length confidence interval: specification

Nothing here refers to the weights `w` or to the optimisation problem of the code: an affine estimator of
`theta = sum_k l_k tau_k` is a vector `a` over all event-time coefficients whose post-treatment part is `l`.
-/

namespace Verif.Honest

open Finset

variable {K : Type*} [Field K] [LinearOrder K]

/-- The event-study coefficients generated by a violation `delta` and post-treatment effects `tau`. -/
def betaOf (p : ℕ) (δ τ : ℕ → K) (j : ℕ) : K := if j < p then δ j else δ j + τ (j - p)

/-- The target parameter. -/
def thetaOf (q : ℕ) (l τ : ℕ → K) : K := ∑ k ∈ range q, l k * τ k

/-- Bias of the estimator `a' beta_hat` when `beta_hat` is centred at `betaOf p delta tau`. -/
def estBias (p q : ℕ) (a l δ τ : ℕ → K) : K := (∑ j ∈ range (p + q), a j * betaOf p δ τ j) - thetaOf q l τ

/-- The estimator uses the weights `l` on the post-treatment coefficients. -/
def PostIs (p q : ℕ) (a l : ℕ → K) : Prop := ∀ k < q, a (p + k) = l k

/-- `B` is the worst-case absolute bias over `Delta^SD(M)` and all effects. -/
def IsWorstBias (p q : ℕ) (a l : ℕ → K) (M B : K) : Prop :=
  IsGreatest {b | ∃ δ ∈ DeltaSD p q M, ∃ τ : ℕ → K, b = |estBias p q a l δ τ|} B

/-- Variance of `a' beta_hat` when `beta_hat` has covariance `sigma`. -/
def quadForm (n : ℕ) (a : ℕ → K) (sigma : ℕ → ℕ → K) : K := ∑ i ∈ range n, ∑ j ∈ range n, a i * sigma i j * a j

/-- The linear trend through the reference period, at the coefficient of position `j` (event time `j - p`, or `j - p + 1` after
the reference period). -/
def trend (p : ℕ) (j : ℕ) : K := if j < p then (j : K) - p else (j : K) - p + 1

end Verif.Honest
