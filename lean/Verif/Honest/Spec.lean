import Verif.Honest.Model

/-!
# Sensitivity analysis: specification

Documented restriction sets (`didhonest/__init__.py`, docstrings of `sd.py:228-282`, `rm.py:46-110`, `sdrm.py`).
-/

namespace Verif.Honest

variable {K : Type*} [Field K] [LinearOrder K]

/-- The whole path of violations: the reference period, at position `p`, is normalised to zero. -/
def full (p : ℕ) (v : ℕ → K) (j : ℕ) : K := if j < p then v j else if j = p then 0 else v (j - 1)

/-- First difference `x_{r+1} - x_r`. -/
def D1 (x : ℕ → K) (r : ℕ) : K := x (r + 1) - x r

/-- Second difference `x_r - 2 x_{r+1} + x_{r+2}`. -/
def D2 (x : ℕ → K) (r : ℕ) : K := x r - 2 * x (r + 1) + x (r + 2)

/-- `Delta^SD(M)`: all second differences of the path (reference period included) are at most `M`. -/
def DeltaSD (p q : ℕ) (M : K) : Set (ℕ → K) := {v | ∀ r, r + 2 ≤ p + q → |D2 (full p v) r| ≤ M}

/-- `Delta^RM(Mbar)`: every post-treatment change is at most `Mbar` times the largest pre-treatment change (differences
`0 .. p-1`, the last one ending at the reference period). -/
def DeltaRM (p q : ℕ) (mbar : K) : Set (ℕ → K) :=
  {v | ∃ s < p, (∀ r < p, |D1 (full p v) r| ≤ |D1 (full p v) s|) ∧
    ∀ t, p ≤ t → t < p + q → |D1 (full p v) t| ≤ mbar * |D1 (full p v) s|}

/-- `Delta^SDRM(Mbar)`: every second difference reaching into the post-treatment periods is at most `Mbar` times the largest
pre-treatment second difference. -/
def DeltaSDRM (p q : ℕ) (mbar : K) : Set (ℕ → K) :=
  {v | ∃ s, s + 2 ≤ p ∧ (∀ r, r + 2 ≤ p → |D2 (full p v) r| ≤ |D2 (full p v) s|) ∧
    ∀ t, p + 1 ≤ t + 2 → t + 2 ≤ p + q → |D2 (full p v) t| ≤ mbar * |D2 (full p v) s|}

/-- The path never falls. -/
def Increasing (p q : ℕ) (v : ℕ → K) : Prop := ∀ r < p + q, full p v r ≤ full p v (r + 1)

/-- The path never rises. -/
def Decreasing (p q : ℕ) (v : ℕ → K) : Prop := ∀ r < p + q, full p v (r + 1) ≤ full p v r

/-- The identified set of `theta = l' tau_post` (docstring of `compute_identified_set_sd`): the values compatible with the
observed coefficients `beta` for some admissible violation path `delta` that agrees with `beta` before the treatment. -/
def IdSet (p q : ℕ) (Δ : Set (ℕ → K)) (beta l : ℕ → K) : Set K :=
  {θ | ∃ δ ∈ Δ, (∀ j < p, δ j = beta j) ∧ θ = ∑ k ∈ Finset.range q, l k * (beta (p + k) - δ (p + k))}

end Verif.Honest
