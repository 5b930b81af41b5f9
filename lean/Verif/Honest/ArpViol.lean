import Verif.Honest.ArpSize
import Verif.Honest.Spec
import Mathlib.Tactic.FinCases
import Mathlib.LinearAlgebra.Matrix.Notation

/-!
# C160: the conditional test with a constant on the right-hand side

`test_in_identified_set` compares the largest moment `A_B y - d_B` with truncation points and a critical value on the scale of `A_B y`.
-/

set_option linter.unusedSectionVars false
set_option linter.unusedSimpArgs false

namespace Verif.Honest

open MeasureTheory ProbabilityTheory Finset

/-- A row with a truncation point above the largest moment makes the code reject at once. -/
theorem reject_below (nb : Bool) (n m : ℕ) (y : ℕ → ℝ) (sigma At : ℕ → ℕ → ℝ) (dt : ℕ → ℝ) (alpha : ℝ) (B i : ℕ)
    (hB : IsFirstMax m (moment n At dt y) B) (hv : arpTol ≤ |etaSigmaEta n (At B) sigma|) (hr : Resolved n m sigma At B)
    (hpos : 0 < moment n At dt y B) (hi : i < m) (hc : slackCoef n sigma At B i < -arpTol)
    (hlt : moment n At dt y B < slackRhs n At dt B (residual n sigma (At B) y) i / slackCoef n sigma At B i) :
    arpCore nb n m y sigma At dt alpha = some false := by
  have hm : 0 < m := lt_of_le_of_lt (Nat.zero_le _) hi
  have e : argmaxFirst m (moment n At dt y) = B := (argmax_iff m hm _ B).2 hB
  unfold arpCore
  dsimp only
  rw [if_neg hm.ne', e, if_neg (not_le.2 hpos), vBounds_eq nb n m y sigma At dt B hv hr]
  have hab : (loOf m (slackCoef n sigma At B) (slackRhs n At dt B (residual n sigma (At B) y))).above (moment n At dt y B) := by
    have hmem : i ∈ negRows m (slackCoef n sigma At B) := by
      unfold negRows
      rw [List.mem_filter]
      have h1 : arpTol < |slackCoef n sigma At B i| := by
        have h3 := neg_le_abs (slackCoef n sigma At B i)
        linarith
      have h2 : slackCoef n sigma At B i < 0 := by have := arpTol_pos; linarith
      exact ⟨List.mem_range.2 hi, by simp [h1, h2]⟩
    unfold loOf
    generalize hl : ((negRows m (slackCoef n sigma At B)).map fun i =>
      slackRhs n At dt B (residual n sigma (At B) y) i / slackCoef n sigma At B i) = l
    have hx : slackRhs n At dt B (residual n sigma (At B) y) i / slackCoef n sigma At B i ∈ l := by
      rw [← hl]
      exact List.mem_map.2 ⟨i, hmem, rfl⟩
    cases l with
    | nil => simp at hx
    | cons a l =>
      show (accum max l (Bnd.fin a)).above _
      rw [accum_fin]
      show _ < l.foldl max a
      have hs := foldl_max_props l a
      rcases List.mem_cons.1 hx with h | h
      · rw [h] at hlt; exact lt_of_lt_of_le hlt hs.1
      · exact lt_of_lt_of_le hlt (hs.2.1 _ h)
  simp only [Option.bind_some]
  rw [if_pos hab]

/-! ## The example: smoothness restriction with two pre-periods and one post-period -/

/-- The rows of the smoothness restriction, in the order of the code. -/
def sdRow (i j : ℕ) : ℝ := ((sdMatrix (K := ℝ) 2 1).getD i 0) j

/-- Coefficients of the three estimates on three independent standard normal variables; covariance matrix
`[[5, 2, -2], [2, 1, -1], [-2, -1, 2]]`. -/
def sdL (j : ℕ) (r : Fin 3) : ℝ :=
  match j, r with
  | 0, 0 => 1
  | 0, 2 => 2
  | 1, 2 => 1
  | 2, 1 => 1
  | 2, 2 => -1
  | _, _ => 0

/-- The true coefficients: no effect, differences in trends `(10, 0, 10)`. -/
def sdBeta (j : ℕ) : ℝ := if j = 1 then 0 else 10

theorem sd_cov : ∀ i j : Fin 3, covOf 3 sdL i j = (!![5, 2, -2; 2, 1, -1; -2, -1, 2] : Matrix (Fin 3) (Fin 3) ℝ) i j := by
  intro i j
  fin_cases i <;> fin_cases j <;> simp [covOf, Fin.sum_univ_three, sdL] <;> norm_num

/-- The rows, explicitly. -/
def sdRow' (i : ℕ) : ℕ → ℝ := fun j =>
  match i, j with
  | 0, 0 => 1
  | 0, 1 => -2
  | 1, 1 => 1
  | 1, 2 => 1
  | 2, 0 => -1
  | 2, 1 => 2
  | 3, 1 => -1
  | 3, 2 => -1
  | _, _ => 0

theorem sdRow_eq (i j : ℕ) (hi : i < 4) (hj : j < 3) : sdRow i j = sdRow' i j := by
  unfold sdRow sdRow'
  interval_cases i <;> interval_cases j <;>
    simp [sdMatrix, pm, secondDiffPy, delCol, setSlice, List.range_succ]

theorem sd_sig (i j : ℕ) (hi : i < 3) (hj : j < 3) : covOf 3 sdL i j =
    (!![5, 2, -2; 2, 1, -1; -2, -1, 2] : Matrix (Fin 3) (Fin 3) ℝ) ⟨i, hi⟩ ⟨j, hj⟩ := sd_cov ⟨i, hi⟩ ⟨j, hj⟩

theorem sd_sigmaEta (g : ℕ → ℝ) : (sigmaEta 3 g (covOf 3 sdL) 0 = 5 * g 0 + 2 * g 1 - 2 * g 2) ∧
    (sigmaEta 3 g (covOf 3 sdL) 1 = 2 * g 0 + g 1 - g 2) ∧ (sigmaEta 3 g (covOf 3 sdL) 2 = -2 * g 0 - g 1 + 2 * g 2) := by
  unfold sigmaEta
  simp only [sum_range_succ, sum_range_zero]
  rw [sd_sig 0 0, sd_sig 0 1, sd_sig 0 2, sd_sig 1 0, sd_sig 1 1, sd_sig 1 2, sd_sig 2 0, sd_sig 2 1, sd_sig 2 2] <;> norm_num
  refine ⟨by ring, by ring, by ring⟩

theorem sd_unit (i : ℕ) (hi : i < 4) : etaSigmaEta 3 (sdRow i) (covOf 3 sdL) = 1 := by
  obtain ⟨h0, h1, h2⟩ := sd_sigmaEta (sdRow i)
  unfold etaSigmaEta
  simp only [sum_range_succ, sum_range_zero, h0, h1, h2]
  rw [sdRow_eq i 0 hi (by norm_num), sdRow_eq i 1 hi (by norm_num), sdRow_eq i 2 hi (by norm_num)]
  interval_cases i <;> simp [sdRow'] <;> norm_num

theorem sd_rowSd (i : ℕ) (hi : i < 4) : rowSd 3 (covOf 3 sdL) sdRow i = 1 := by
  unfold rowSd
  rw [sd_unit i hi, Real.sqrt_one]
  exact max_eq_left (by unfold arpTol; norm_num)

theorem sd_at (i j : ℕ) (hi : i < 4) (hj : j < 3) : aTilde 3 (covOf 3 sdL) sdRow i j = sdRow' i j := by
  unfold aTilde
  rw [sd_rowSd i hi, sdRow_eq i j hi hj]
  ring

theorem sd_dt (i : ℕ) (hi : i < 4) : dTilde 3 (covOf 3 sdL) sdRow (fun _ => 10) i = 10 := by
  unfold dTilde
  rw [sd_rowSd i hi]
  ring

theorem sd_y (z : Fin 3 → ℝ) : gaussOf 3 sdBeta sdL z 0 = 10 + z 0 + 2 * z 2 ∧ gaussOf 3 sdBeta sdL z 1 = z 2 ∧
    gaussOf 3 sdBeta sdL z 2 = 10 + z 1 - z 2 := by
  unfold gaussOf
  simp only [Fin.sum_univ_three, sdBeta, sdL]
  refine ⟨by norm_num; ring, by norm_num, by norm_num; ring⟩

theorem sd_moment (z : Fin 3 → ℝ) (i : ℕ) (hi : i < 4) :
    moment 3 (aTilde 3 (covOf 3 sdL) sdRow) (dTilde 3 (covOf 3 sdL) sdRow fun _ => 10) (gaussOf 3 sdBeta sdL z) i =
      if i = 0 then z 0 else if i = 1 then z 1 else if i = 2 then -20 - z 0 else -20 - z 1 := by
  obtain ⟨h0, h1, h2⟩ := sd_y z
  unfold moment dotN
  simp only [sum_range_succ, sum_range_zero, h0, h1, h2]
  rw [sd_dt i hi, sd_at i 0 hi (by norm_num), sd_at i 1 hi (by norm_num), sd_at i 2 hi (by norm_num)]
  interval_cases i <;> simp [sdRow'] <;> ring

theorem sd_eta (B : ℕ) (hB : B < 4) : etaSigmaEta 3 (aTilde 3 (covOf 3 sdL) sdRow B) (covOf 3 sdL) = 1 := by
  obtain ⟨h0, h1, h2⟩ := sd_sigmaEta (aTilde 3 (covOf 3 sdL) sdRow B)
  unfold etaSigmaEta
  simp only [sum_range_succ, sum_range_zero, h0, h1, h2]
  rw [sd_at B 0 hB (by norm_num), sd_at B 1 hB (by norm_num), sd_at B 2 hB (by norm_num)]
  interval_cases B <;> simp [sdRow'] <;> norm_num

theorem sd_coef (B i : ℕ) (hB : B < 2) (hi : i < 4) : slackCoef 3 (covOf 3 sdL) (aTilde 3 (covOf 3 sdL) sdRow) B i =
    if i = B then 0 else if i = B + 2 then -2 else -1 := by
  obtain ⟨h0, h1, h2⟩ := sd_sigmaEta (aTilde 3 (covOf 3 sdL) sdRow B)
  have hB' : B < 4 := by omega
  unfold slackCoef
  simp only [sum_range_succ, sum_range_zero, h0, h1, h2, sd_eta B hB']
  rw [sd_at B 0 hB' (by norm_num), sd_at B 1 hB' (by norm_num), sd_at B 2 hB' (by norm_num),
    sd_at i 0 hi (by norm_num), sd_at i 1 hi (by norm_num), sd_at i 2 hi (by norm_num)]
  interval_cases B <;> interval_cases i <;> simp [sdRow'] <;> norm_num

theorem sd_resolved (B : ℕ) (hB : B < 2) : Resolved 3 4 (covOf 3 sdL) (aTilde 3 (covOf 3 sdL) sdRow) B := by
  intro i hi
  have h := sd_coef B i hB hi
  unfold slackCoef at h
  rw [h]
  have ht : arpTol < 1 := by unfold arpTol; norm_num
  by_cases h1 : i = B
  · left; simp [h1]
  · right
    by_cases h2 : i = B + 2
    · simp [h2]; linarith
    · simp [h1, h2]; exact ht

theorem sd_rhs (z : Fin 3 → ℝ) (B i : ℕ) (hB : B < 2) (hi : i < 2) (hne : i ≠ B) :
    slackRhs 3 (aTilde 3 (covOf 3 sdL) sdRow) (dTilde 3 (covOf 3 sdL) sdRow fun _ => 10) B
      (residual 3 (covOf 3 sdL) (aTilde 3 (covOf 3 sdL) sdRow B) (gaussOf 3 sdBeta sdL z)) i =
      -(10 + if i = 0 then z 0 else z 1) := by
  have hB' : B < 4 := by omega
  have hi' : i < 4 := by omega
  have h := moment_diff 3 (covOf 3 sdL) (aTilde 3 (covOf 3 sdL) sdRow) (dTilde 3 (covOf 3 sdL) sdRow fun _ => 10)
    (gaussOf 3 sdBeta sdL z) B i
  rw [sd_coef B i hB hi', sd_moment z i hi', sd_moment z B hB'] at h
  have h3 : dotN 3 (aTilde 3 (covOf 3 sdL) sdRow B) (gaussOf 3 sdBeta sdL z) = 10 + if B = 0 then z 0 else z 1 := by
    have := sd_moment z B hB'
    unfold moment at this
    rw [sd_dt B hB'] at this
    rw [sub_eq_iff_eq_add] at this
    rw [this]
    interval_cases B <;> simp [add_comm]
  rw [h3] at h
  interval_cases B <;> interval_cases i <;> simp at h hne ⊢ <;> linarith

/-- All outcomes with moderate errors and one binding restriction exceeded are rejected. -/
theorem sd_rejects (nb : Bool) (alpha : ℝ) (z : Fin 3 → ℝ) (h0 : |z 0| < 5) (h1 : |z 1| < 5) (hp : 0 < z 0 ∨ 0 < z 1) :
    arpTest nb 3 4 (gaussOf 3 sdBeta sdL z) (covOf 3 sdL) sdRow (fun _ => 10) alpha = some false := by
  rw [abs_lt] at h0 h1
  have ht : arpTol < 1 := by unfold arpTol; norm_num
  by_cases hlt : z 0 < z 1
  · refine reject_below nb 3 4 _ _ _ _ alpha 1 0 ⟨by norm_num, ?_⟩ ?_ (sd_resolved 1 (by norm_num)) ?_ (by norm_num) ?_ ?_
    · intro i hi
      rw [sd_moment z i hi, sd_moment z 1 (by norm_num)]
      interval_cases i <;> simp <;> first | linarith | (constructor <;> linarith)
    · rw [sd_eta 1 (by norm_num)]; simp; exact ht.le
    · rw [sd_moment z 1 (by norm_num)]
      simp
      rcases hp with h | h
      · exact h.trans hlt
      · exact h
    · rw [sd_coef 1 0 (by norm_num) (by norm_num)]; simp; exact ht
    · rw [sd_rhs z 1 0 (by norm_num) (by norm_num) (by norm_num), sd_coef 1 0 (by norm_num) (by norm_num),
        sd_moment z 1 (by norm_num)]
      simp
      linarith
  · refine reject_below nb 3 4 _ _ _ _ alpha 0 1 ⟨by norm_num, ?_⟩ ?_ (sd_resolved 0 (by norm_num)) ?_ (by norm_num) ?_ ?_
    · intro i hi
      rw [sd_moment z i hi, sd_moment z 0 (by norm_num)]
      interval_cases i <;> simp <;> linarith
    · rw [sd_eta 0 (by norm_num)]; simp; exact ht.le
    · rw [sd_moment z 0 (by norm_num)]
      simp
      rcases hp with h | h
      · exact h
      · linarith
    · rw [sd_coef 0 1 (by norm_num) (by norm_num)]; simp; exact ht
    · rw [sd_rhs z 0 1 (by norm_num) (by norm_num) (by norm_num), sd_coef 0 1 (by norm_num) (by norm_num),
        sd_moment z 0 (by norm_num)]
      simp
      linarith

/-- C160 (violated).  Smoothness restriction with bound `M = 10`, two pre-periods, one post-period; the estimates are normal with a
non-singular covariance matrix and true coefficients inside the restriction with no treatment effect.  The conditional test of the true
value rejects with probability at least 67%, at every level `alpha`. -/
theorem C160_size_violated (nb : Bool) (alpha : ℝ) :
    GaussianCoefs (stdNormals 3) 3 (gaussOf 3 sdBeta sdL) sdBeta (covOf 3 sdL) ∧ sdBeta ∈ DeltaSD (K := ℝ) 2 1 10 ∧
      NullHolds 3 4 sdRow (fun _ => 10) sdBeta ∧
      67 / 100 ≤ (stdNormals 3).real
        {z | arpTest nb 3 4 (gaussOf 3 sdBeta sdL z) (covOf 3 sdL) sdRow (fun _ => 10) alpha = some false} := by
  refine ⟨gauss_exists 3 3 _ _, ?_, ?_, ?_⟩
  · intro r hr
    have : r < 2 := by omega
    interval_cases r <;> simp [D2, full, sdBeta]
  · intro i hi
    unfold dotN
    simp only [sum_range_succ, sum_range_zero]
    rw [sdRow_eq i 0 hi (by norm_num), sdRow_eq i 1 hi (by norm_num), sdRow_eq i 2 hi (by norm_num)]
    interval_cases i <;> simp [sdRow', sdBeta] <;> norm_num
  · set R := {z | arpTest nb 3 4 (gaussOf 3 sdBeta sdL z) (covOf 3 sdL) sdRow (fun _ => 10) alpha = some false} with hR
    have hcov : (Set.univ : Set (Fin 3 → ℝ)) ⊆ R ∪ ((Set.pi Set.univ fun r : Fin 3 => if r = 2 then Set.univ else Set.Iic 0) ∪
        ({z | 5 ≤ |z 0|} ∪ {z | 5 ≤ |z 1|})) := by
      intro z _
      by_cases h0 : 5 ≤ |z 0|
      · exact Or.inr (Or.inr (Or.inl h0))
      by_cases h1 : 5 ≤ |z 1|
      · exact Or.inr (Or.inr (Or.inr h1))
      by_cases hp : 0 < z 0 ∨ 0 < z 1
      · exact Or.inl (sd_rejects nb alpha z (not_le.1 h0) (not_le.1 h1) hp)
      · push Not at hp
        refine Or.inr (Or.inl ?_)
        intro r _
        fin_cases r
        · simpa using hp.1
        · simpa using hp.2
        · simp
    have hquad : (stdNormals 3).real (Set.pi Set.univ fun r : Fin 3 => if r = 2 then Set.univ else Set.Iic 0) = 1 / 4 := by
      unfold stdNormals
      rw [Measure.real, Measure.pi_pi, Fin.prod_univ_three, ENNReal.toReal_mul, ENNReal.toReal_mul]
      have e : ((gaussianReal 0 1) (Set.Iic 0)).toReal = 1 / 2 := phi_zero
      simp [e]
      norm_num
    have ht : ∀ r : Fin 3, (stdNormals 3).real {z | 5 ≤ |z r|} ≤ 1 / 25 := by
      intro r
      have h := coord_tail 3 r 5 (by norm_num)
      have h2 := ENNReal.toReal_mono ENNReal.ofReal_ne_top h
      rw [ENNReal.toReal_ofReal (by norm_num)] at h2
      norm_num at h2 ⊢
      exact h2
    have h := measureReal_mono (μ := stdNormals 3) hcov
    have h1 := measureReal_union_le (μ := stdNormals 3) R ((Set.pi Set.univ fun r : Fin 3 => if r = 2 then Set.univ else Set.Iic 0) ∪
        ({z | 5 ≤ |z 0|} ∪ {z | 5 ≤ |z 1|}))
    have h2 := measureReal_union_le (μ := stdNormals 3) (Set.pi Set.univ fun r : Fin 3 => if r = 2 then Set.univ else Set.Iic 0)
        ({z | 5 ≤ |z 0|} ∪ {z | 5 ≤ |z 1|})
    have h3 := measureReal_union_le (μ := stdNormals 3) {z | 5 ≤ |z 0|} {z | 5 ≤ |z 1|}
    have h4 : (stdNormals 3).real Set.univ = 1 := by simp
    have := ht 0
    have := ht 1
    linarith

end Verif.Honest
