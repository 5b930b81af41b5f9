import Verif.DR.Props

set_option linter.unusedSectionVars false

/-!
# Two-period estimators on degenerate groups: C74

No treated observation: `drdid_panel` and `std_ipw_did_panel` refuse, `reg_did_panel` reports an effect of zero.
-/

namespace Verif.DR

variable {ι κ K : Type*} [Fintype ι] [Fintype κ] [Field K] [LinearOrder K] [IsStrictOrderedRing K]

/-- **C74 (DR).** Whatever is returned without an error was computed from treated and comparison observations with
non-zero weight. -/
theorem C74_dr_needs_both_groups (ols : OLS ι κ K) (logit : Logit ι κ K) (lo hi level : K) (y1 y0 : ι → K)
    (d : ι → Bool) (x : ι → κ → K) (w : ι → K) (a : K)
    (h : drdidPanel ols logit lo hi level y1 y0 d x w = .ok a) :
    (∃ i, d i = true ∧ w i ≠ 0) ∧ (∃ i, d i = false ∧ w i ≠ 0) := by
  unfold drdidPanel at h
  split_ifs at h with h1 h2 h3
  simp only at h
  split_ifs at h with h4 h5
  constructor
  · by_contra hc
    push Not at hc
    apply h4
    unfold mean
    rw [Finset.sum_eq_zero, zero_div]
    intro i _
    unfold wTreat normalize ind
    by_cases hi : d i = true
    · rw [hc i hi]; simp
    · simp [hi]
  · by_contra hc
    push Not at hc
    apply h5
    unfold mean
    rw [Finset.sum_eq_zero, zero_div]
    intro i _
    unfold wCont normalize ind
    by_cases hi : d i = true
    · simp [hi]
    · rw [hc i (by simpa using hi)]; simp

/-- **C74 (IPW).** A number is only returned when both groups have non-zero weight. -/
theorem C74_ipw_needs_both_groups (logit : Logit ι κ K) (lo hi level : K) (y1 y0 : ι → K)
    (d : ι → Bool) (x : ι → κ → K) (w : ι → K) (a : K)
    (h : stdIpwDidPanel logit lo hi level y1 y0 d x w = .ok (some a)) :
    (∃ i, d i = true ∧ w i ≠ 0) ∧ (∃ i, d i = false ∧ w i ≠ 0) := by
  unfold stdIpwDidPanel at h
  split_ifs at h with h1 h2 h3
  simp only at h
  split_ifs at h with h4 h5
  · simp at h
  · simp at h
  constructor
  · by_contra hc
    push Not at hc
    apply h4
    unfold mean
    rw [Finset.sum_eq_zero, zero_div]
    intro i _
    unfold wTreat normalize ind
    by_cases hi : d i = true
    · rw [hc i hi]; simp
    · simp [hi]
  · by_contra hc
    push Not at hc
    apply h5
    unfold mean
    rw [Finset.sum_eq_zero, zero_div]
    intro i _
    unfold wCont normalize ind
    by_cases hi : d i = true
    · simp [hi]
    · rw [hc i (by simpa using hi)]; simp

/-- **C74 violated (REG).** With enough comparison units and no treated unit `reg_did_panel` returns the estimate 0,
whatever the outcomes. -/
theorem C74_reg_violated (ols : OLS ι κ K) (y1 y0 : ι → K) (d : ι → Bool) (x : ι → κ → K) (w : ι → K)
    (hw : ∀ i, 0 ≤ w i) (hd : ∀ i, d i = false) (hn : Fintype.card κ ≤ Fintype.card ι) :
    regDidPanel ols y1 y0 d x w = .ok (some 0) := by
  have hz : mean (fun i => normalize w i * ind d i) = 0 := by
    unfold mean
    rw [Finset.sum_eq_zero, zero_div]
    intro i _
    rw [ind_false (hd i), mul_zero]
  have hneg : ¬ ∃ i, w i < 0 := by push Not; exact hw
  have hc : (Finset.univ.filter (fun i => d i = false)).card = Fintype.card ι := by
    rw [Finset.filter_true_of_mem (fun i _ => hd i), Finset.card_univ]
  unfold regDidPanel
  rw [if_neg hneg]
  simp only
  rw [hc, if_neg (by omega), if_pos hz]

example : drdidPanel exOls exLogit (1/1000) (999/1000) (1 : ℚ) exY1 exY0 (fun _ => false) (fun _ _ => 1) exW
    = .error .noTreated := by decide +kernel
example : regDidPanel exOls exY1 exY0 (fun _ => false) (fun _ _ => 1) exW = .ok (some 0) :=
  C74_reg_violated _ _ _ _ _ _ (by decide +kernel) (fun _ => rfl) (by decide +kernel)
example : ∃ a, drdidPanel exOls exLogit (1/1000) (999/1000) (1 : ℚ) exY1 exY0 exD (fun _ _ => 1) exW = .ok a :=
  ⟨_, C25_dr_no_covariates _ _ _ _ _ _ _ _ _ _ (by decide +kernel) (by decide +kernel) (fun _ => rfl) exArms
    (by decide +kernel) (exOls_normal _ _ (by decide +kernel) _) ⟨_, rfl⟩ (by intro k; revert k; decide +kernel)
    (by decide +kernel)⟩

end Verif.DR
