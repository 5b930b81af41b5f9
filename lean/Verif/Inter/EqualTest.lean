import Mathlib.Algebra.BigOperators.Fin
import Mathlib.Algebra.Order.Field.Rat
import Mathlib.Algebra.Order.BigOperators.Group.Finset
import Mathlib.Data.Fin.VecNotation
import Mathlib.Tactic.Ring
import Mathlib.Tactic.FieldSimp
import Mathlib.Tactic.LinearCombination
import Mathlib.Tactic.NormNum

/-!
# Test of equal effects of `did_multiplegt` (C147)

`moderndid/didinter/compute_did_multiplegt.py:497-500, 636-663`: differences of consecutive horizons, their covariance, and the
quadratic form through `np.linalg.solve`.  The p-value is a function of the statistic and of the number of horizons.  `solve` is
a relation here: a vector that solves the linear system (`LinAlgError`, line 662, is the absence of a unique one).
-/

set_option linter.unusedSectionVars false
set_option linter.unusedSimpArgs false

namespace Verif.Inter.EqualTest

open Finset

variable {n : ℕ} {K : Type*} [Field K]

/-- `contrast_matrix @ v`, lines 649-654. -/
def contrast (v : Fin (n + 1) → K) (i : Fin n) : K := v i.castSucc - v i.succ

/-- `contrast_matrix @ vcov @ contrast_matrix.T`, line 655. -/
def contrastCov (V : Fin (n + 1) → Fin (n + 1) → K) (i j : Fin n) : K :=
  (V i.castSucc j.castSucc - V i.succ j.castSucc) - (V i.castSucc j.succ - V i.succ j.succ)

/-- `x` is a solution of the system of line 658. -/
def Solves (V : Fin (n + 1) → Fin (n + 1) → K) (est : Fin (n + 1) → K) (x : Fin n → K) : Prop :=
  ∀ i, ∑ j, contrastCov V i j * x j = contrast est i

/-- `chi2_stat`, line 658. -/
def stat (est : Fin (n + 1) → K) (x : Fin n → K) : K := ∑ i, contrast est i * x i

/-- Whether a test is reported, lines 497-500 and 641-643: the covariance matrix needs the influence values of EVERY requested
horizon (`none`: no switchers), the test at least two estimates. -/
def reported {m : ℕ} (infl : Fin m → Option Unit) (est : Fin m → Option K) : Bool :=
  decide (∀ l, (infl l).isSome) && decide (2 ≤ (univ.filter fun l => (est l).isSome).card)

/-- Weights on the horizons: the contrast matrix transposed times `x`. -/
def lam (x : Fin n → K) (k : Fin (n + 1)) : K := Fin.lastCases (motive := fun _ => K) 0 x k - Fin.cases (motive := fun _ => K) 0 x k

theorem lam_adjoint (x : Fin n → K) (u : Fin (n + 1) → K) : ∑ k, lam x k * u k = ∑ i, contrast u i * x i := by
  unfold lam contrast
  simp only [sub_mul, sum_sub_distrib]
  rw [Fin.sum_univ_castSucc, Fin.sum_univ_succ (fun k : Fin (n + 1) => Fin.cases (motive := fun _ => K) 0 x k * u k)]
  simp only [Fin.lastCases_castSucc, Fin.lastCases_last, Fin.cases_zero, Fin.cases_succ, zero_mul, add_zero, zero_add]
  congr 1 <;> exact sum_congr rfl fun i _ => mul_comm _ _

theorem lam_sum (x : Fin n → K) : ∑ k, lam x k = 0 := by
  have := lam_adjoint x (fun _ => 1)
  simpa [contrast] using this

theorem stat_eq (est : Fin (n + 1) → K) (x : Fin n → K) : stat est x = ∑ k, lam x k * est k := (lam_adjoint x est).symm

theorem const_of_contrast (v : Fin (n + 1) → K) (h : ∀ i, contrast v i = 0) (k : Fin (n + 1)) : v k = v 0 := by
  induction k using Fin.induction with
  | zero => rfl
  | succ i ih =>
    have := h i
    unfold contrast at this
    rw [← ih]
    linear_combination -this

/-- A solution gives weights that sum to 0 and reproduce the estimates up to a constant. -/
theorem solves_lam {V : Fin (n + 1) → Fin (n + 1) → K} {est : Fin (n + 1) → K} {x : Fin n → K} (h : Solves V est x) :
    ∃ c, ∀ k, ∑ l, V k l * lam x l + c = est k := by
  have hc : ∀ i, contrast (fun k => est k - ∑ l, V k l * lam x l) i = 0 := by
    intro i
    have hi := h i
    have e : ∀ k, ∑ l, V k l * lam x l = ∑ j, contrast (V k) j * x j := fun k => by
      rw [← lam_adjoint]; exact sum_congr rfl fun l _ => mul_comm _ _
    unfold contrast at hi ⊢
    beta_reduce
    rw [e, e]
    have : ∑ j, contrastCov V i j * x j = ∑ j, contrast (V i.castSucc) j * x j - ∑ j, contrast (V i.succ) j * x j := by
      rw [← sum_sub_distrib]
      refine sum_congr rfl fun j _ => ?_
      unfold contrastCov contrast
      ring
    rw [this] at hi
    linear_combination -hi
  refine ⟨est 0 - ∑ l, V 0 l * lam x l, fun k => ?_⟩
  have := const_of_contrast _ hc k
  beta_reduce at this
  linear_combination -this

/-- Any two such weightings give the same statistic. -/
theorem stat_unique (V : Fin (n + 1) → Fin (n + 1) → K) (hV : ∀ k l, V k l = V l k) (est a b : Fin (n + 1) → K) (c d : K)
    (ha : ∑ k, a k = 0) (hb : ∑ k, b k = 0) (hac : ∀ k, ∑ l, V k l * a l + c = est k)
    (hbd : ∀ k, ∑ l, V k l * b l + d = est k) : ∑ k, a k * est k = ∑ k, b k * est k := by
  have h1 : ∑ k, a k * est k = ∑ k, ∑ l, a k * (V k l * b l) := by
    simp only [← hbd, mul_add, sum_add_distrib, mul_sum]
    rw [← sum_mul, ha, zero_mul, add_zero]
  have h2 : ∑ k, b k * est k = ∑ k, ∑ l, b k * (V k l * a l) := by
    simp only [← hac, mul_add, sum_add_distrib, mul_sum]
    rw [← sum_mul, hb, zero_mul, add_zero]
  rw [h1, h2, sum_comm]
  refine sum_congr rfl fun k _ => sum_congr rfl fun l _ => ?_
  rw [hV l k]
  ring

/-- C147.  The statistic does not depend on which solution of the linear system is taken, nor on the order in which the horizons are
listed: any solution for the reordered estimates and covariances gives the same value. -/
theorem C147_order (V : Fin (n + 1) → Fin (n + 1) → K) (hV : ∀ k l, V k l = V l k) (est : Fin (n + 1) → K) (x y : Fin n → K)
    (σ : Equiv.Perm (Fin (n + 1))) (hx : Solves V est x) (hy : Solves (fun k l => V (σ k) (σ l)) (fun k => est (σ k)) y) :
    stat (fun k => est (σ k)) y = stat est x := by
  obtain ⟨c, hc⟩ := solves_lam hx
  obtain ⟨d, hd⟩ := solves_lam hy
  rw [stat_eq, stat_eq, ← Equiv.sum_comp σ (fun k => lam x k * est k)]
  refine stat_unique (fun k l => V (σ k) (σ l)) (fun k l => hV _ _) (fun k => est (σ k)) (lam y) (fun k => lam x (σ k)) d c
    (lam_sum y) ((Equiv.sum_comp σ _).trans (lam_sum x)) hd fun k => ?_
  rw [Equiv.sum_comp σ (fun l => V (σ k) l * lam x l)]
  exact hc (σ k)

/-- C147.  Only differences between effects matter: a constant added to all of them changes nothing. -/
theorem C147_common_level (V : Fin (n + 1) → Fin (n + 1) → K) (est : Fin (n + 1) → K) (x : Fin n → K) (c : K) :
    (Solves V (fun k => est k + c) x ↔ Solves V est x) ∧ stat (fun k => est k + c) x = stat est x := by
  have : contrast (fun k => est k + c) = contrast est := by
    funext i; unfold contrast; ring
  unfold Solves stat
  rw [this]
  exact ⟨Iff.rfl, rfl⟩

/-- C147.  Effects that are exactly equal give the statistic 0. -/
theorem C147_equal (est : Fin (n + 1) → K) (c : K) (h : ∀ k, est k = c) (x : Fin n → K) : stat est x = 0 := by
  unfold stat contrast
  simp [h]

/-- C147.  The statistic does not depend on the unit of measurement of the outcome. -/
theorem C147_units (V : Fin (n + 1) → Fin (n + 1) → K) (est : Fin (n + 1) → K) (x : Fin n → K) (a : K) (ha : a ≠ 0)
    (hx : Solves V est x) :
    Solves (fun k l => a ^ 2 * V k l) (fun k => a * est k) (fun i => x i / a) ∧
    stat (fun k => a * est k) (fun i => x i / a) = stat est x := by
  constructor
  · intro i
    have hi := hx i
    have : ∀ j, contrastCov (fun k l => a ^ 2 * V k l) i j * (x j / a) = a * (contrastCov V i j * x j) := by
      intro j; unfold contrastCov; field_simp
    simp only [this]
    rw [← mul_sum, hi]
    unfold contrast; ring
  · unfold stat
    refine sum_congr rfl fun i _ => ?_
    unfold contrast; field_simp

/-- C147.  The statistic is not negative when the covariance matrix is positive semidefinite. -/
theorem C147_nonneg [LinearOrder K] [IsStrictOrderedRing K] (V : Fin (n + 1) → Fin (n + 1) → K)
    (hV : ∀ a : Fin (n + 1) → K, 0 ≤ ∑ k, ∑ l, a k * V k l * a l) (est : Fin (n + 1) → K) (x : Fin n → K)
    (hx : Solves V est x) : 0 ≤ stat est x := by
  obtain ⟨c, hc⟩ := solves_lam hx
  rw [stat_eq]
  have : ∑ k, lam x k * est k = ∑ k, ∑ l, lam x k * V k l * lam x l := by
    simp only [← hc, mul_add, sum_add_distrib, mul_sum]
    rw [← sum_mul, lam_sum, zero_mul, add_zero]
    refine sum_congr rfl fun k _ => sum_congr rfl fun l _ => ?_
    ring
  rw [this]
  exact hV _

/-- Three horizons with a diagonal covariance matrix. -/
example : Solves (n := 2) (K := ℚ) (fun k l => if k = l then 1 else 0) ![1, 2, 4] ![-4 / 3, -5 / 3] ∧
    stat (n := 2) (K := ℚ) ![1, 2, 4] ![-4 / 3, -5 / 3] = 14 / 3 ∧
    Solves (n := 2) (K := ℚ) (fun k l => if k = l then 1 else 0) ![2, 1, 4] ![-1 / 3, -5 / 3] ∧
    stat (n := 2) (K := ℚ) ![2, 1, 4] ![-1 / 3, -5 / 3] = 14 / 3 := by
  unfold Solves
  decide +kernel

/-- C147 (violated with a missing horizon).  One requested horizon without switchers suppresses the test for all the others. -/
theorem C147_missing_horizon_violated {m : ℕ} (infl : Fin m → Option Unit) (est : Fin m → Option K) (l : Fin m)
    (hl : infl l = none) : reported infl est = false := by
  unfold reported
  have : ¬ ∀ l, (infl l).isSome = true := fun h => by simpa [hl] using h l
  simp [this]

/-- **C147 (when a test is reported).** Exactly when every requested horizon has switchers and two different horizons have an
estimate. -/
theorem C147_reported {m : ℕ} (infl : Fin m → Option Unit) (est : Fin m → Option K) :
    reported infl est = true ↔ (∀ l, infl l ≠ none) ∧ ∃ l l', l ≠ l' ∧ est l ≠ none ∧ est l' ≠ none := by
  unfold reported
  rw [Bool.and_eq_true, decide_eq_true_iff, decide_eq_true_iff, show 2 ≤ _ ↔ 1 < _ from Iff.rfl, Finset.one_lt_card]
  simp only [mem_filter, mem_univ, true_and, Option.isSome_iff_ne_none]
  constructor
  · rintro ⟨h, a, ha, b, hb, hab⟩; exact ⟨h, a, b, hab, ha, hb⟩
  · rintro ⟨h, a, b, hab, ha, hb⟩; exact ⟨h, a, ha, b, hb, hab⟩

example : reported (K := ℚ) ![some (), some (), some ()] ![some 1, some 2, some 3] = true ∧
    reported (K := ℚ) ![some (), some (), none] ![some 1, some 2, none] = false := by decide +kernel

end Verif.Inter.EqualTest
