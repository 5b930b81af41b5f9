import Verif.DR.Twfe
import Mathlib.Algebra.Order.Field.Rat

/-!
# Two-way fixed-effects regressions: concrete sample and violations

Four units, one covariate, two periods.
-/

set_option linter.unusedSectionVars false
set_option linter.unusedSimpArgs false

namespace Verif.DR

variable {K : Type*} [Field K]

/-- With an inverse Gram matrix the normal equations have one solution. -/
lemma normalEq_solution {ρ c : Type*} [Fintype ρ] [Fintype c] [DecidableEq c] (W : ρ → K) (X : ρ → c → K)
    (Y : ρ → K) (β : c → K) (M : c → c → K)
    (hM : ∀ k l, ∑ j, M k j * twfeGram W X j l = if k = l then 1 else 0)
    (h : NormalEq W allRows X Y β) (k : c) :
    β k = ∑ j, M k j * ((∑ r, W r * X r j * Y r) / (Fintype.card ρ : K)) := by
  have e : ∀ j, ∑ r, W r * X r j * Y r = ∑ l, (∑ r, W r * X r j * X r l) * β l := by
    intro j
    have := h j
    simp only [allRows, Finset.filter_true] at this
    rw [← sub_eq_zero, ← this]
    simp only [Finset.sum_mul]
    rw [Finset.sum_comm, ← Finset.sum_sub_distrib]
    refine Finset.sum_congr rfl fun r _ => ?_
    rw [mul_sub, sub_mul, Finset.mul_sum, Finset.sum_mul]
    congr 1
    · ring
    · exact Finset.sum_congr rfl fun l _ => by ring
  have : ∀ j, (∑ r, W r * X r j * Y r) / (Fintype.card ρ : K) = ∑ l, twfeGram W X j l * β l := by
    intro j
    rw [e j, Finset.sum_div]
    exact Finset.sum_congr rfl fun l _ => by unfold twfeGram; ring
  simp only [this, Finset.mul_sum]
  rw [Finset.sum_comm]
  have h2 : ∀ l, ∑ j, M k j * (twfeGram W X j l * β l) = (if k = l then 1 else 0) * β l := by
    intro l
    rw [← hM k l, Finset.sum_mul]
    exact Finset.sum_congr rfl fun j _ => by ring
  simp only [h2, ite_mul, one_mul, zero_mul, Finset.sum_ite_eq, Finset.mem_univ, if_true]

def twD : Fin 4 → Bool := ![true, true, false, false]
def twX : Fin 4 → Fin 1 → ℚ := fun i _ => ![0, 1, 0, 2] i
def twY0 : Fin 4 → ℚ := ![1, 2, 0, 1]
def twY1 : Fin 4 → ℚ := ![3, 7, 1, 1]
def twW : Fin 4 → ℚ := fun _ => 1
/-- A constant added to both outcomes of the second unit. -/
def twA : Fin 4 → ℚ := ![0, 6, 0, 0]
def twB : Fin 4 ⊕ Fin 1 → ℚ := Sum.elim ![-1/5, 27/20, 1/2, 3] ![7/10]
def twB' : Fin 4 ⊕ Fin 1 → ℚ := Sum.elim ![-7/5, 99/20, 1/2, 3] ![19/10]
def twM : Fin 4 ⊕ Fin 1 → Fin 4 ⊕ Fin 1 → ℚ :=
  Sum.elim ![Sum.elim ![28/5, -24/5, -4, 4] ![-8/5], Sum.elim ![-24/5, 42/5, 4, -8] ![4/5],
    Sum.elim ![-4, 4, 8, -8] ![0], Sum.elim ![4, -8, -8, 16] ![0]] ![Sum.elim ![-8/5, 4/5, 0, 0] ![8/5]]

lemma twB_normal : NormalEq (twfeW twW) allRows (twfeX twD twX) (twfeY twY0 twY1) twB := by
  unfold NormalEq; decide +kernel

lemma twB'_normal : NormalEq (twfeW twW) allRows (twfeX twD twX)
    (twfeY (fun i => twY0 i + twA i) (fun i => twY1 i + twA i)) twB' := by
  unfold NormalEq; decide +kernel

lemma twM_inv : ∀ k l, ∑ j, twM k j * twfeGram (twfeW twW) (twfeX twD twX) j l = if k = l then 1 else 0 := by
  decide +kernel

/-- C114, C115 and C116 apply to this sample. -/
example : twB (.inl 3) = did2x2 twW twD twY1 twY0 :=
  C114_panel twW twD twX twY0 twY1 twB twB_normal (by decide +kernel) (by decide +kernel)

example (v : Fin 4 → ℚ) := C116_multiplier twW twD twX twY0 twY1 twB twM v twB_normal twM_inv (by decide +kernel)
  (by decide +kernel) (by decide +kernel)

example (v : Fin 4 → ℚ) := C115_unit_shift_twfe twW twD twX twY0 twY1 twA twB twB' twM v twB_normal twB'_normal twM_inv
  (by decide +kernel) (by decide +kernel) (by decide +kernel)

/-- C114 for repeated cross-sections: six observations, unequal weights. -/
example : NormalEq ![1, 2, 1, 1, 3, 1] allRows
      (twfeXrc ![true, true, true, false, false, false] ![true, false, true, true, false, false])
      ![4, 1, 6, 2, 1, 5] (![2, 0, -1, 4] : Fin 4 → ℚ) := by
  unfold NormalEq; decide +kernel

/-- **C115 (violated).** The analytic standard error of `twfe_did_panel` does change: on this sample adding 6 to both
outcomes of one unit leaves the coefficient at 3 and multiplies the squared standard error by 1139/131.  The influence
values of the two rows of a unit are treated as independent observations, so the unit constant is counted as noise. -/
theorem C115_twfe_se_violated :
    (∀ β, NormalEq (twfeW twW) allRows (twfeX twD twX) (twfeY twY0 twY1) β →
      β (.inl 3) = 3 ∧
      twfeVar (twfeIF (twfeW twW) (twfeX twD twX) (twfeY twY0 twY1) β twM (.inl 3)) = 131/70) ∧
    (∀ β, NormalEq (twfeW twW) allRows (twfeX twD twX)
        (twfeY (fun i => twY0 i + twA i) (fun i => twY1 i + twA i)) β →
      β (.inl 3) = 3 ∧
      twfeVar (twfeIF (twfeW twW) (twfeX twD twX) (twfeY (fun i => twY0 i + twA i) (fun i => twY1 i + twA i)) β twM
        (.inl 3)) = 1139/70) := by
  constructor
  · intro β h
    have hb : β = twB := by
      funext k
      rw [normalEq_solution _ _ _ β twM twM_inv h, ← normalEq_solution _ _ _ twB twM twM_inv twB_normal]
    subst hb
    exact ⟨by decide +kernel, by decide +kernel⟩
  · intro β h
    have hb : β = twB' := by
      funext k
      rw [normalEq_solution _ _ _ β twM twM_inv h, ← normalEq_solution _ _ _ twB' twM twM_inv twB'_normal]
    subst hb
    exact ⟨by decide +kernel, by decide +kernel⟩

/-- Draws of the four units. -/
def twV : List ℚ := [1, 2, 3, 4]
/-- Weights of the rows in a weighted-bootstrap replication, `boot_panel.py:554-556`. -/
def twRepW (r : Fin 4 × Bool) : ℚ := twfeW twW r * (repeatDraws twV).getD (rowPos 4 r.1 r.2) 0
def twRepM : Fin 4 ⊕ Fin 1 → Fin 4 ⊕ Fin 1 → ℚ :=
  Sum.elim ![Sum.elim ![18/7, -16/7, -2, 2] ![-4/7], Sum.elim ![-16/7, 43/7, 2, -6] ![2/7],
    Sum.elim ![-2, 2, 3, -3] ![0], Sum.elim ![2, -6, -3, 25/3] ![0]] ![Sum.elim ![-4/7, 2/7, 0, 0] ![4/7]]

/-- **C117 (violated, effect on a replication).** With draws 1, 2, 3, 4 every solution of the replication's regression has
interaction coefficient 3; the estimator run with the unit weights multiplied by these draws gives 25/7. -/
theorem C117_replicate_violated :
    (∀ β, NormalEq twRepW allRows (twfeX twD twX) (twfeY twY0 twY1) β → β (.inl 3) = 3) ∧
    (∀ β, NormalEq (twfeW fun i => twW i * twV.getD i 0) allRows (twfeX twD twX) (twfeY twY0 twY1) β →
      β (.inl 3) = 25/7) := by
  constructor
  · intro β h
    rw [normalEq_solution _ _ _ β twRepM (by decide +kernel) h]
    decide +kernel
  · intro β h
    rw [C114_panel _ twD twX twY0 twY1 β h (by decide +kernel) (by decide +kernel)]
    decide +kernel

end Verif.DR
