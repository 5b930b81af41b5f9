import Verif.Honest.IdentifiedRM

/-!
# C63: concrete cases
-/

set_option linter.unusedSectionVars false
set_option linter.unusedSimpArgs false

namespace Verif.Honest

open Finset

/-- Two pre-periods, one post-period: coefficients 11, 5 and 0. -/
def exBeta : ℕ → ℚ := fun j => if j = 0 then 11 else if j = 1 then 5 else 0

theorem exBeta_feasible (M : ℚ) (v : ℕ → ℚ) : v ∈ feasible 2 1 (sdMatrix 2 1) M exBeta ↔
    (v 0 = 11 ∧ v 1 = 5) ∧ 1 ≤ M ∧ |5 + v 2| ≤ M := by
  show (Sat 3 (sdMatrix 2 1) M v ∧ _) ↔ _
  rw [C60_sd 2 1 M v]
  constructor
  · rintro ⟨h, hpre⟩
    have e0 := hpre 0 (by omega)
    have e1 := hpre 1 (by omega)
    simp only [exBeta] at e0 e1
    norm_num at e0 e1
    have h0 := h 0 (by omega)
    have h1 := h 1 (by omega)
    simp [D2, full, e0, e1] at h0 h1
    norm_num at h0
    exact ⟨⟨e0, e1⟩, h0, h1⟩
  · rintro ⟨⟨e0, e1⟩, h0, h1⟩
    constructor
    · intro r hr
      have : r = 0 ∨ r = 1 := by omega
      rcases this with rfl | rfl
      · simp [D2, full, e0, e1]; norm_num; exact h0
      · simp [D2, full, e0, e1]; exact h1
    · intro j hj
      have : j = 0 ∨ j = 1 := by omega
      rcases this with rfl | rfl
      · rw [e0]; simp [exBeta]
      · rw [e1]; simp [exBeta]

theorem ex_target (v : ℕ → ℚ) : target 2 1 (fun _ => 1) v = v 2 := by simp [target]

theorem ex_lp0 (f : (ℕ → ℚ) → ℚ) : LpMin (feasible 2 1 (sdMatrix 2 1) 0 exBeta) f none := by
  left
  rw [Set.eq_empty_iff_forall_notMem]
  intro v hv
  have := ((exBeta_feasible 0 v).1 hv).2.1
  norm_num at this

theorem ex_lp1 : LpMin (feasible 2 1 (sdMatrix 2 1) 1 exBeta) (fun v => -target 2 1 (fun _ => 1) v) (some 4) ∧
    LpMin (feasible 2 1 (sdMatrix 2 1) 1 exBeta) (target 2 1 fun _ => 1) (some (-6)) := by
  constructor
  · refine ⟨⟨fun j => if j = 0 then 11 else if j = 1 then 5 else -4, (exBeta_feasible 1 _).2 ?_, ?_⟩, ?_⟩
    · norm_num
    · beta_reduce; rw [ex_target]; norm_num
    · rintro _ ⟨v, hv, rfl⟩
      have := ((exBeta_feasible 1 v).1 hv).2.2
      beta_reduce
      rw [ex_target]
      rw [abs_le] at this
      linarith [this.2]
  · refine ⟨⟨fun j => if j = 0 then 11 else if j = 1 then 5 else -6, (exBeta_feasible 1 _).2 ?_, ?_⟩, ?_⟩
    · norm_num [abs_of_neg]
    · rw [ex_target]; norm_num
    · rintro _ ⟨v, hv, rfl⟩
      have := ((exBeta_feasible 1 v).1 hv).2.2
      rw [ex_target]
      rw [abs_le] at this
      linarith [this.1]

/-- C63 (violated).  Nesting in `M` fails when the smaller bound contradicts the pre-treatment coefficients: with `M = 0` the code
reports the point `[0, 0]` (the identified set is empty), with `M = 1` it reports `[4, 6]`. -/
theorem C63_nesting_violated : ∃ (beta l : ℕ → ℚ) (rmax rmin rmax' rmin' : Option ℚ),
    LpMin (feasible 2 1 (sdMatrix 2 1) 0 beta) (fun v => -target 2 1 l v) rmax ∧
    LpMin (feasible 2 1 (sdMatrix 2 1) 0 beta) (target 2 1 l) rmin ∧
    LpMin (feasible 2 1 (sdMatrix 2 1) 1 beta) (fun v => -target 2 1 l v) rmax' ∧
    LpMin (feasible 2 1 (sdMatrix 2 1) 1 beta) (target 2 1 l) rmin' ∧
    IdSet 2 1 (DeltaSD 2 1 0) beta l = ∅ ∧
    bounds (target 2 1 l beta) rmax rmin = (0, 0) ∧ bounds (target 2 1 l beta) rmax' rmin' = (4, 6) := by
  refine ⟨exBeta, fun _ => 1, none, none, some 4, some (-6), ex_lp0 _, ex_lp0 _, ex_lp1.1, ex_lp1.2, ?_, ?_, ?_⟩
  · rw [Set.eq_empty_iff_forall_notMem]
    rintro θ ⟨δ, hδ, hpre, _⟩
    have : δ ∈ feasible 2 1 (sdMatrix 2 1) 0 exBeta := ⟨(C60_sd 2 1 0 δ).2 hδ, hpre⟩
    have := ((exBeta_feasible 0 δ).1 this).2.1
    norm_num at this
  · rw [ex_target]; simp [bounds, exBeta]
  · rw [ex_target]; norm_num [bounds, exBeta]

/-- The hypotheses of `C63_sd_exact` and `C63_sd_nested` are met by this example at `M = 1`: the identified set is `[4, 6]`. -/
example (θ : ℚ) : (4 ≤ θ ∧ θ ≤ 6) ↔ θ ∈ IdSet 2 1 (DeltaSD 2 1 1) exBeta fun _ => 1 := by
  have hne : (IdSet 2 1 (DeltaSD 2 1 1) exBeta fun _ => 1).Nonempty := by
    have h := (exBeta_feasible 1 (fun j => if j = 0 then 11 else if j = 1 then 5 else -5)).2 (by norm_num)
    exact ⟨_, _, (C60_sd 2 1 1 _).1 h.1, h.2, rfl⟩
  have := C63_sd_exact 2 1 (by omega) 1 exBeta (fun _ => 1) (some 4) (some (-6)) ex_lp1.1 ex_lp1.2 hne θ
  rw [← this, ex_target]
  norm_num [bounds, exBeta]

/-- Solver results exist for every program with a bounded objective on a non-empty closed polyhedron; for the infeasible
programs of `C63_rm_violated` they are `none`: its hypotheses hold with `p = 2`, `q = 1`, `Mbar = 1`, `c = d = 1`. -/
example : ∃ x, unionSet (target 2 1 (fun _ => (1 : ℚ)) (observe 2 (fun j => if j = 0 then 1 else if j < 2 then 0 else 1) fun _ => 3))
    (sRangeRM 2) (fun _ _ => none) (fun _ _ => none) = some (x, x) ∧ ∑ _k ∈ range 1, (1 : ℚ) * 3 ≠ x := by
  have he : ∀ s ∈ sRangeRM 2, ∀ b, feasible 2 1 (rmMatrix (1 / 10 ^ 10 : ℚ) 2 1 1 s b) 0
      (observe 2 (fun j => if j = 0 then 1 else if j < 2 then 0 else 1) fun _ => 3) = ∅ := by
    intro s hs b
    rw [Set.eq_empty_iff_forall_notMem]
    rintro v ⟨hv, hpre⟩
    obtain ⟨s0, hs1, hs2, e⟩ := sRangeRM_ref 2 s hs
    have h01 : s0 = 1 := by omega
    subst h01
    have ha := ((C62_rm_fixed (1 / 10 ^ 10) (by norm_num) (by norm_num) 2 1 1 s 1 e hs2 b v).1 hv).1 0 (by omega)
    have e0 := hpre 0 (by omega)
    have e1 := hpre 1 (by omega)
    simp [observe] at e0 e1
    simp [D1, full, e0, e1] at ha
    norm_num at ha
  exact (C63_rm_violated (1 / 10 ^ 10 : ℚ) (by norm_num) (by norm_num) 2 1 le_rfl 1 1 1 one_ne_zero (by norm_num) (by norm_num)
    (fun _ => 3) (fun _ => 1) (by norm_num) (fun _ _ => none) (fun _ _ => none) (fun s hs b => Or.inl (he s hs b))
    (fun s hs b => Or.inl (he s hs b))).2

end Verif.Honest
