import Verif.Honest.ArpLpSize
import Verif.Honest.Farkas

/-!
# Exact solvers exist

The theorems on the tests with nuisance parameters assume that the linear-programming solver is correct and returns basic solutions, and
that the search for the truncation points is exact.  Such routines exist for every program with positive standard deviations, so that
these hypotheses can always be met.
-/

set_option linter.unusedSectionVars false
set_option linter.unusedSimpArgs false

namespace Verif.Honest

open Finset Matrix

variable {R r k : ℕ}

/-- For a value that no dual solution exceeds there are nuisance parameters satisfying the inequalities. -/
theorem primal_of_dual (S : Matrix (Fin r) (Fin r) ℝ) (X : Matrix (Fin r) (Fin k) ℝ) (hsd : ∀ i, 0 < sdVec S i) (y : Fin r → ℝ) (eta : ℝ)
    (h : ∀ g ∈ DualSet S X, g ⬝ᵥ y ≤ eta) : ∃ delta : Fin k → ℝ, ∀ i, y i ≤ sdVec S i * eta + (X *ᵥ delta) i := by
  rcases farkas k (fun i j => -X i j) (fun i => sdVec S i * eta - y i) with ⟨x, hx⟩ | ⟨w, h0, h1, h2⟩
  · refine ⟨x, fun i => ?_⟩
    have := hx i
    simp only [neg_mul, sum_neg_distrib] at this
    rw [mulVec, dotProduct]
    linarith
  · exfalso
    have hc : 0 < ∑ i, sdVec S i * w i := by
      refine lt_of_le_of_ne (sum_nonneg fun i _ => mul_nonneg (hsd i).le (h0 i)) fun hz => ?_
      have hw : ∀ i, w i = 0 := by
        intro i
        have := (sum_eq_zero_iff_of_nonneg fun i _ => mul_nonneg (hsd i).le (h0 i)).1 hz.symm i (mem_univ i)
        exact (mul_eq_zero.1 this).resolve_left (hsd i).ne'
      simp [hw] at h2
    have hg : (fun i => w i / ∑ i, sdVec S i * w i) ∈ DualSet S X := by
      refine ⟨fun i => div_nonneg (h0 i) hc.le, ?_, fun j => ?_⟩
      · simp only [mul_div_assoc', ← sum_div]
        exact div_self hc.ne'
      · simp only [mul_div_assoc', ← sum_div]
        have := h1 j
        simp only [mul_neg, sum_neg_distrib, neg_eq_zero] at this
        rw [show ∑ i, X i j * w i = ∑ i, w i * X i j from sum_congr rfl fun i _ => mul_comm _ _, this, zero_div]
    have hle := h _ hg
    have e : (fun i => w i / ∑ i, sdVec S i * w i) ⬝ᵥ y = (∑ i, w i * y i) / ∑ i, sdVec S i * w i := by
      rw [dotProduct, sum_div]
      exact sum_congr rfl fun i _ => by ring
    rw [e, div_le_iff₀ hc] at hle
    have e2 : ∑ i, w i * (sdVec S i * eta - y i) = eta * (∑ i, sdVec S i * w i) - ∑ i, w i * y i := by
      rw [mul_sum, ← sum_sub_distrib]
      exact sum_congr rfl fun i _ => by ring
    rw [e2] at h2
    linarith

/-- Strong duality with a basic solution. -/
theorem lp_solution (S : Matrix (Fin r) (Fin r) ℝ) (X : Matrix (Fin r) (Fin k) ℝ) (hsd : ∀ i, 0 < sdVec S i) (y : Fin r → ℝ)
    (hne : (DualSet S X).Nonempty) : ∃ s : LpSol r k, LpOptimal S X y s ∧ s.lam ∈ DualVertex S X := by
  have hcont : Continuous fun g : Fin r → ℝ => g ⬝ᵥ y := by
    unfold dotProduct
    fun_prop
  obtain ⟨g, hg, hmax⟩ := (dual_compact S X hsd).exists_isMaxOn hne hcont.continuousOn
  have hopt : OptAt S X y g := ⟨hg, fun g' hg' => hmax hg'⟩
  obtain ⟨v, hv, hvo⟩ : ∃ v ∈ DualVertex S X, OptAt S X y v := by
    rcases opt_vertex S X hsd y g hopt with h | ⟨g1, h1, _, _, _, h2, _⟩
    · exact ⟨g, h, hopt⟩
    · exact ⟨g1, h1, h2⟩
  obtain ⟨delta, hd⟩ := primal_of_dual S X hsd y (v ⬝ᵥ y) hvo.2
  exact ⟨⟨v ⬝ᵥ y, delta, v⟩, ⟨hd, hvo.1.1, hvo.1.2.1, hvo.1.2.2, rfl⟩, hv⟩

/-- A correct solver with basic solutions exists. -/
theorem solver_exists (S : Matrix (Fin r) (Fin r) ℝ) (X : Matrix (Fin r) (Fin k) ℝ) (hsd : ∀ i, 0 < sdVec S i) :
    ∃ solve : (Fin r → ℝ) → Option (LpSol r k), SolverOk S X solve ∧ ∀ y s, solve y = some s → s.lam ∈ DualVertex S X := by
  classical
  by_cases hne : (DualSet S X).Nonempty
  · refine ⟨fun y => some (lp_solution S X hsd y hne).choose, ⟨fun y s h => ?_, fun y h => (by cases h)⟩, fun y s h => ?_⟩
    · rw [Option.some.injEq] at h
      rw [← h]
      exact (lp_solution S X hsd y hne).choose_spec.1
    · rw [Option.some.injEq] at h
      rw [← h]
      exact (lp_solution S X hsd y hne).choose_spec.2
  · refine ⟨fun _ => none, ⟨fun y s h => (by cases h), fun y _ t => ?_⟩, fun y s h => (by cases h)⟩
    rw [Set.not_nonempty_iff_eq_empty] at hne
    obtain ⟨delta, hd⟩ := primal_of_dual S X hsd y (t - 1) (by rw [hne]; intro g hg; cases hg)
    exact ⟨t - 1, delta, by linarith, hd⟩

open Classical in
/-- The exact truncation points. -/
noncomputable def exactDual (S : Matrix (Fin r) (Fin r) ℝ) (X : Matrix (Fin r) (Fin k) ℝ) (_ : ℝ) (s g : Fin r → ℝ) : Bnd ℝ × Bnd ℝ :=
  (if BddBelow {x | OptAt S X (lineAt S g s x) g} then Bnd.fin (sInf {x | OptAt S X (lineAt S g s x) g}) else Bnd.infinite,
   if BddAbove {x | OptAt S X (lineAt S g s x) g} then Bnd.fin (sSup {x | OptAt S X (lineAt S g s x) g}) else Bnd.infinite)

/-- The set of values for which a vertex stays optimal is an interval. -/
theorem optLine_between (S : Matrix (Fin r) (Fin r) ℝ) (X : Matrix (Fin r) (Fin k) ℝ) (s g : Fin r → ℝ) (a b x : ℝ)
    (ha : OptAt S X (lineAt S g s a) g) (hb : OptAt S X (lineAt S g s b) g) (hax : a ≤ x) (hxb : x ≤ b) : OptAt S X (lineAt S g s x) g := by
  refine ⟨ha.1, fun g' hg' => ?_⟩
  have e : ∀ (h : Fin r → ℝ) (t : ℝ), h ⬝ᵥ lineAt S g s t = h ⬝ᵥ s + t * (h ⬝ᵥ dirVec S g) := by
    intro h t
    simp only [dotProduct, lineAt, mul_sum, ← sum_add_distrib]
    exact sum_congr rfl fun i _ => by ring
  have h1 := ha.2 g' hg'
  have h2 := hb.2 g' hg'
  rw [e, e] at h1 h2 ⊢
  by_cases hc : 0 ≤ g' ⬝ᵥ dirVec S g - g ⬝ᵥ dirVec S g
  · nlinarith [mul_le_mul_of_nonneg_right hxb hc]
  · push Not at hc
    nlinarith [mul_le_mul_of_nonpos_right hax hc.le]

/-- Exact truncation points exist. -/
theorem exactDual_ok (S : Matrix (Fin r) (Fin r) ℝ) (X : Matrix (Fin r) (Fin k) ℝ) : DualOk (exactDual S X) S X := by
  intro y g hg hopt _ _
  obtain ⟨I, hI⟩ : ∃ I : Set ℝ, I = {x | OptAt S X (lineAt S g (resFin S g y) x) g} := ⟨_, rfl⟩
  have hne : I.Nonempty := ⟨g ⬝ᵥ y, by rw [hI]; show OptAt S X (lineAt S g (resFin S g y) (g ⬝ᵥ y)) g; rw [line_self]; exact hopt⟩
  have hbt : ∀ a ∈ I, ∀ b ∈ I, ∀ x, a ≤ x → x ≤ b → x ∈ I := by
    intro a ha b hb x h1 h2
    rw [hI] at ha hb ⊢
    exact optLine_between S X _ g a b x ha hb h1 h2
  unfold exactDual
  rw [← hI]
  dsimp only
  refine ⟨by split_ifs <;> simp, by split_ifs <;> simp, ?_, ?_⟩
  · rintro x ⟨h1, h2⟩
    have hlo : ∃ a ∈ I, a ≤ x := by
      split_ifs at h1 with hb
      · obtain ⟨a, ha, hax⟩ := exists_lt_of_csInf_lt hne h1
        exact ⟨a, ha, hax.le⟩
      · rw [not_bddBelow_iff] at hb
        obtain ⟨a, ha, hax⟩ := hb x
        exact ⟨a, ha, hax.le⟩
    have hup : ∃ b ∈ I, x ≤ b := by
      split_ifs at h2 with hb
      · obtain ⟨a, ha, hax⟩ := exists_lt_of_lt_csSup hne h2
        exact ⟨a, ha, hax.le⟩
      · rw [not_bddAbove_iff] at hb
        obtain ⟨a, ha, hax⟩ := hb x
        exact ⟨a, ha, hax.le⟩
    obtain ⟨a, ha, hax⟩ := hlo
    obtain ⟨b, hb, hxb⟩ := hup
    exact hbt a ha b hb x hax hxb
  · intro x hx
    constructor
    · split_ifs with hb
      · exact csInf_le hb hx
      · trivial
    · split_ifs with hb
      · exact le_csSup hb hx
      · trivial

end Verif.Honest
