import Verif.DR.Jackknife
import Mathlib.Algebra.Order.Field.Rat
import Mathlib.Tactic.FieldSimp

set_option linter.unusedSectionVars false
set_option linter.unusedSimpArgs false

/-!
# Continuous treatment: the estimates of one cell

Models `cont_did_acrt`, `moderndid/didcont/cont_did.py:553-664`, and the regression-adjustment branch of `pte_attgt`,
`moderndid/didcont/estimation/estimators.py:150-197`.

The spline basis (without its first column) and its first derivative are arbitrary functions `B`, `B'` of the dose; the
intercept column of the design is index `none`.  `np.linalg.lstsq` is modelled by "any solution of the normal equations",
`np.linalg.inv` by "any inverse".  The early exits (no treated units, fewer than two distinct doses, failed solve) return
zero and are modelled in `Cont/Agg.lean` as missing cells.
-/

namespace Verif.Cont

open Verif.DR

variable {ι κ K : Type*} [Fintype ι] [Fintype κ]

section Field
variable [Field K] [LinearOrder K]

/-- `treated_mask = dose > 0`, `cont_did.py:603`. -/
def treatedB (D : ι → K) (i : ι) : Bool := decide (0 < D i)

/-- `dose == 0`, `cont_did.py:615`. -/
def controlB (D : ι → K) (i : ι) : Bool := decide (D i = 0)

/-- Mean over the selected units: `np.mean(v[mask])`. -/
def meanOver (s : ι → Bool) (v : ι → K) : K := (∑ i with s i = true, v i) / ((Finset.univ.filter fun i => s i = true).card : K)

/-- One row of the design: intercept and basis, `cont_did.py:617-621`. -/
def rowAt (B : K → κ → K) (d : K) : Option κ → K
  | none => 1
  | some k => B d k

/-- `x_treated` (rows of untreated units are never used). -/
def design (B : K → κ → K) (D : ι → K) (i : ι) : Option κ → K := rowAt B (D i)

/-- `control_mean`, `cont_did.py:615`. -/
def controlMean (D dy : ι → K) : K := meanOver (controlB D) dy

/-- `att_d` at one dose, `cont_did.py:630-632`. -/
def attD (B : K → κ → K) (β : Option κ → K) (D dy : ι → K) (d : K) : K :=
  (∑ k, rowAt B d k * β k) - controlMean D dy

/-- `acrt_d` at one dose, `cont_did.py:634-635`. -/
def acrtD (B' : K → κ → K) (β : Option κ → K) (d : K) : K := ∑ k, B' d k * β (some k)

/-- `att_overall`, `cont_did.py:637-638`. -/
def attOverall (B : K → κ → K) (β : Option κ → K) (D dy : ι → K) : K :=
  meanOver (treatedB D) (fitted (design B D) β) - controlMean D dy

/-- `acrt_overall`, `cont_did.py:640-641`. -/
def acrtOverall (B' : K → κ → K) (β : Option κ → K) (D : ι → K) : K :=
  meanOver (treatedB D) fun i => acrtD B' β (D i)

/-- `np.concatenate([np.zeros(1), avg_deriv])`, `cont_did.py:650-651`. -/
def avgDeriv (B' : K → κ → K) (D : ι → K) : Option κ → K
  | none => 0
  | some k => meanOver (treatedB D) fun i => B' (D i) k

/-- `inf_func`, `cont_did.py:643-654`; `A` is `bread`. -/
def acrtIF (B B' : K → κ → K) (A : Option κ → Option κ → K) (β : Option κ → K) (D dy : ι → K) (i : ι) : K :=
  if treatedB D i then
    (acrtD B' β (D i) - acrtOverall B' β D) +
      ∑ k, (∑ l, (dy i - fitted (design B D) β i) * design B D i l * A l k) * avgDeriv B' D k
  else 0

/-- `adjusted_inf_func = (n_units / n1) * inf_func`, `process_panel.py:617`; `nAll` is the number of units in the data,
`Fintype.card ι` the number of units in the cell. -/
def cellColumn (nAll : K) (f : ι → K) (i : ι) : K := nAll / (Fintype.card ι : K) * f i

/-- `bread` is the inverse of `x_treated.T @ x_treated / n_treated`, `cont_did.py:647`. -/
def IsBread [DecidableEq κ] (B : K → κ → K) (D : ι → K) (A : Option κ → Option κ → K) : Prop :=
  ∀ k m, ∑ l, meanOver (treatedB D) (fun i => design B D i k * design B D i l) * A l m = if k = m then 1 else 0

/-- `reg_did_panel` as called by `pte_attgt` with the *dose* as treatment indicator and an intercept as only covariate,
`estimators.py:155-197`, `did... reg_did_panel.py:254-393`: regression on the units with dose exactly zero (whose fitted
value is their weighted mean), treated and comparison means both weighted by `w * dose`. -/
def eventLevel (w D dy : ι → K) : K :=
  (∑ i, w i * D i * dy i) / (∑ i, w i * D i) -
    (∑ i, w i * D i * ((∑ j with controlB D j = true, w j * dy j) / ∑ j with controlB D j = true, w j)) / (∑ i, w i * D i)

end Field

/-! ## C99: what the cell estimates are -/

section Field2
variable [Field K] [LinearOrder K] [IsStrictOrderedRing K]

/-- The coefficients solve the least-squares problem of the treated units' changes on `[1, B(dose)]`. -/
def IsFit (B : K → κ → K) (D dy : ι → K) (β : Option κ → K) : Prop :=
  NormalEq (fun _ => 1) (treatedB D) (design B D) dy β

lemma card_treated_ne {D : ι → K} (h : ∃ i, 0 < D i) : ((Finset.univ.filter fun i => treatedB D i = true).card : K) ≠ 0 := by
  obtain ⟨i, hi⟩ := h
  have : (Finset.univ.filter fun i => treatedB D i = true).card ≠ 0 :=
    Finset.card_ne_zero.2 ⟨i, by simp [treatedB, hi]⟩
  exact_mod_cast this

lemma IsFit.score {B : K → κ → K} {D dy : ι → K} {β : Option κ → K} (h : IsFit B D dy β) (k : Option κ) :
    ∑ i with treatedB D i = true, (dy i - fitted (design B D) β i) * design B D i k = 0 := by
  have := h k
  simpa [fitted] using this

/-- **C99 (overall level).** Whatever the spline basis, the cell's overall ATT is the plain difference between the mean
outcome change of the cohort's units and that of the comparison units. -/
theorem C99_att_overall (B : K → κ → K) (D dy : ι → K) (β : Option κ → K) (hβ : IsFit B D dy β) :
    attOverall B β D dy = meanOver (treatedB D) dy - meanOver (controlB D) dy := by
  unfold attOverall controlMean
  congr 1
  unfold meanOver
  congr 1
  have := hβ.score none
  simp only [design, rowAt, mul_one] at this
  rw [Finset.sum_sub_distrib] at this
  exact (sub_eq_zero.1 this).symm

lemma fitted_design (B : K → κ → K) (D : ι → K) (β : Option κ → K) (i : ι) :
    fitted (design B D) β i = ∑ k, rowAt B (D i) k * β k := rfl

/-- **C99 (curve and overall).** The overall ATT is the average over the treated units of the ATT curve at their own doses,
and the overall ACRT is the average of the ACRT curve. -/
theorem C99_curve_average (B B' : K → κ → K) (D dy : ι → K) (β : Option κ → K) (ht : ∃ i, 0 < D i) :
    attOverall B β D dy = meanOver (treatedB D) (fun i => attD B β D dy (D i)) ∧
      acrtOverall B' β D = meanOver (treatedB D) (fun i => acrtD B' β (D i)) := by
  refine ⟨?_, rfl⟩
  unfold attOverall attD meanOver
  simp only [fitted_design]
  rw [Finset.sum_sub_distrib, Finset.sum_const, nsmul_eq_mul, sub_div, mul_comm, mul_div_assoc,
    div_self (card_treated_ne ht), mul_one]

/-- **C99 (exactness).** If the treated units' changes are exactly `c + Σ b_k B_k(dose)` and the design has full column rank,
the estimated curve is that function minus the comparison mean and the estimated slope is its derivative, at every dose. -/
theorem C99_exact (B B' : K → κ → K) (D dy : ι → K) (β b : Option κ → K) (hβ : IsFit B D dy β)
    (hfull : FullRank (fun _ => 1) (treatedB D) (design B D))
    (hdy : ∀ i, 0 < D i → dy i = b none + ∑ k, B (D i) k * b (some k)) (d : K) :
    attD B β D dy d = b none + (∑ k, B d k * b (some k)) - controlMean D dy ∧
      acrtD B' β d = ∑ k, B' d k * b (some k) := by
  have hbb : β = b := by
    have : (fun k => b k - β k) = 0 := by
      apply hfull
      intro k
      rw [← hβ k]
      refine Finset.sum_congr rfl fun i hi => ?_
      have hi' : 0 < D i := by simpa [treatedB] using (Finset.mem_filter.1 hi).2
      congr 2
      rw [hdy i hi', Fintype.sum_option, Fintype.sum_option]
      simp only [design, rowAt, one_mul, mul_sub, Finset.sum_sub_distrib]
      ring
    funext k
    have := congrFun this k
    simp only [Pi.zero_apply] at this
    exact (sub_eq_zero.1 this).symm
  subst hbb
  refine ⟨?_, rfl⟩
  unfold attD
  rw [Fintype.sum_option]
  simp [rowAt]

/-- **C99 (units outside).** Outcomes of comparison units enter the curve only through their mean: changing them without
changing their mean changes no estimate of the cell. -/
theorem C99_controls_mean_only (B : K → κ → K) (D dy dy' : ι → K) (β : Option κ → K)
    (hc : controlMean D dy = controlMean D dy') (d : K) :
    attD B β D dy d = attD B β D dy' d := by
  unfold attD; rw [hc]

/-- **C99 (mean zero).** The influence values of a cell sum to zero. -/
theorem C99_mean_zero (B B' : K → κ → K) (A : Option κ → Option κ → K) (D dy : ι → K) (β : Option κ → K)
    (hβ : IsFit B D dy β) (ht : ∃ i, 0 < D i) : ∑ i, acrtIF B B' A β D dy i = 0 := by
  unfold acrtIF
  rw [← Finset.sum_filter]
  rw [Finset.sum_add_distrib, Finset.sum_sub_distrib, Finset.sum_const, nsmul_eq_mul]
  have h1 : (∑ i with treatedB D i = true, acrtD B' β (D i)) -
      ((Finset.univ.filter fun i => treatedB D i = true).card : K) * acrtOverall B' β D = 0 := by
    unfold acrtOverall meanOver
    rw [mul_div_cancel₀ _ (card_treated_ne ht), sub_self]
  rw [h1, zero_add, Finset.sum_comm]
  refine Finset.sum_eq_zero fun k _ => ?_
  rw [← Finset.sum_mul]
  rw [Finset.sum_comm]
  have : (∑ l, ∑ i with treatedB D i = true, (dy i - fitted (design B D) β i) * design B D i l * A l k) = 0 := by
    refine Finset.sum_eq_zero fun l _ => ?_
    rw [← Finset.sum_mul, hβ.score l, zero_mul]
  rw [this, zero_mul]

/-! ## C101: comparison outcomes and the reported ATT uncertainty -/

/-- **C101 (violated).** Every comparison unit's reported influence is zero, and the reported influence of every unit does not
change when comparison outcomes are replaced by arbitrary values — although the ATT, to whose standard error the same
influence values are applied, subtracts the comparison units' mean. -/
theorem C101_controls_ignored_violated (B B' : K → κ → K) (A : Option κ → Option κ → K) (D dy dy' : ι → K)
    (β : Option κ → K) (hsame : ∀ i, 0 < D i → dy' i = dy i) :
    (∀ i, D i = 0 → acrtIF B B' A β D dy i = 0) ∧
    (∀ i, acrtIF B B' A β D dy' i = acrtIF B B' A β D dy i) ∧
    (IsFit B D dy β → IsFit B D dy' β) ∧
    attOverall B β D dy' - attOverall B β D dy = controlMean D dy - controlMean D dy' := by
  refine ⟨?_, ?_, ?_, ?_⟩
  · intro i hi
    simp [acrtIF, treatedB, hi]
  · intro i
    unfold acrtIF
    by_cases h : 0 < D i
    · simp only [treatedB, h, decide_true, if_true, hsame i h]
    · simp [treatedB, h]
  · intro h k
    rw [← h k]
    refine Finset.sum_congr rfl fun i hi => ?_
    have hi' : 0 < D i := by simpa [treatedB] using (Finset.mem_filter.1 hi).2
    rw [hsame i hi']
  · unfold attOverall; ring

/-! ## C105: event-study level -/

/-- **C105 (violated).** With unit weights, the event-study "level" of a cell is the *dose-weighted* mean change of the
cohort minus the comparison mean. -/
theorem C105_dose_weighted_violated (D dy : ι → K) (hD : ∀ i, 0 ≤ D i) (ht : ∃ i, 0 < D i) :
    eventLevel (fun _ => 1) D dy =
      (∑ i with treatedB D i = true, D i * dy i) / (∑ i with treatedB D i = true, D i) - meanOver (controlB D) dy := by
  have hs : ∀ f : ι → K, ∑ i, D i * f i = ∑ i with treatedB D i = true, D i * f i := by
    intro f
    rw [Finset.sum_filter]
    refine Finset.sum_congr rfl fun i _ => ?_
    by_cases h : 0 < D i
    · simp [treatedB, h]
    · have : D i = 0 := le_antisymm (not_lt.1 h) (hD i)
      simp [treatedB, this]
  have hs1 : ∑ i, D i = ∑ i with treatedB D i = true, D i := by simpa using hs fun _ => 1
  have hpos : (∑ i, D i) ≠ 0 := by
    obtain ⟨i, hi⟩ := ht
    exact ne_of_gt (lt_of_lt_of_le hi (Finset.single_le_sum (fun j _ => hD j) (Finset.mem_univ i)))
  unfold eventLevel meanOver
  simp only [one_mul]
  rw [← Finset.sum_mul, mul_div_right_comm, div_self hpos, one_mul, hs dy, ← hs1]
  congr 1
  rw [Finset.sum_const, nsmul_eq_mul, mul_one]

/-- **C105.** It is the plain mean difference when the treated units all have the same dose. -/
theorem C105_equal_doses (D dy : ι → K) (c : K) (hc : 0 < c) (hD : ∀ i, D i = 0 ∨ D i = c) (ht : ∃ i, 0 < D i) :
    eventLevel (fun _ => 1) D dy = meanOver (treatedB D) dy - meanOver (controlB D) dy := by
  rw [C105_dose_weighted_violated D dy (fun i => by rcases hD i with h | h <;> rw [h]; exact hc.le) ht]
  congr 1
  unfold meanOver
  have h1 : ∀ i ∈ Finset.univ.filter (fun i => treatedB D i = true), D i = c := by
    intro i hi
    have hi' : 0 < D i := by simpa [treatedB] using (Finset.mem_filter.1 hi).2
    rcases hD i with h | h
    · rw [h] at hi'; exact absurd hi' (lt_irrefl _)
    · exact h
  rw [Finset.sum_congr rfl fun i hi => by rw [h1 i hi], ← Finset.mul_sum, Finset.sum_congr rfl h1, Finset.sum_const,
    nsmul_eq_mul, mul_comm _ c, mul_div_mul_left _ _ hc.ne']

end Field2

/-! ## C100: the influence of a unit on the ACRT -/

section Real
variable [DecidableEq ι] [DecidableEq κ]

/-- Weighted ACRT: the average over treated units with weights `w` of the slope at their doses. -/
noncomputable def acrtW (B' : ℝ → κ → ℝ) (β : Option κ → ℝ) (D w : ι → ℝ) : ℝ :=
  wmean (fun j => w j * ind (treatedB D) j) fun j => acrtD B' β (D j)

lemma acrtW_one (B' : ℝ → κ → ℝ) (β : Option κ → ℝ) (D : ι → ℝ) [Nonempty ι] :
    acrtW B' β D (fun _ => 1) = acrtOverall B' β D := by
  unfold acrtW acrtOverall meanOver
  rw [wmean_eq]
  simp only [one_mul, ind]
  simp [Finset.sum_filter]

lemma meanOver_eq (s : ι → Bool) (v : ι → ℝ) [Nonempty ι] :
    meanOver s v = mean (fun j => ind s j * v j) * ((Fintype.card ι : ℝ) / ((Finset.univ.filter fun i => s i = true).card : ℝ)) := by
  unfold meanOver mean
  rw [sum_ind]
  have := card_ne (ι := ι) (K := ℝ)
  field_simp

/-- **C100.** The influence value the cell's ACRT *should* have for unit `i` — the derivative of the estimate in the weight of
`i`, refitting the regression — is the value computed in `cont_did_acrt` times (units in the cell)/(treated units). -/
theorem C100_jackknife (B B' : ℝ → κ → ℝ) (A : Option κ → Option κ → ℝ) (D dy : ι → ℝ) (β : ℝ → Option κ → ℝ) (i : ι)
    (ht : ∃ i, 0 < D i) (hβ : RefitOLS (fun _ => 1) i (treatedB D) (design B D) dy β) (hA : IsBread B D A) :
    HasDerivAt (fun t => acrtW B' (β t) D (upw (fun _ => 1) i t))
      ((Fintype.card ι : ℝ) / ((Finset.univ.filter fun j => treatedB D j = true).card : ℝ) *
        acrtIF B B' A (β 0) D dy i) 0 := by
  have : Nonempty ι := ⟨i⟩
  set n : ℝ := (Fintype.card ι : ℝ) with hn
  set m : ℝ := ((Finset.univ.filter fun j => treatedB D j = true).card : ℝ) with hm
  have hn0 : n ≠ 0 := card_ne
  have hm0 : m ≠ 0 := card_treated_ne ht
  -- `(n/m) A` inverts the Gram matrix averaged over the whole cell
  have hM : IsGramInv (fun j => (1:ℝ) * ind (treatedB D) j) (design B D) (fun l k => n / m * A l k) := by
    intro k l
    rw [← hA k l]
    refine Finset.sum_congr rfl fun q _ => ?_
    rw [meanOver_eq]
    have : (fun j => (1:ℝ) * ind (treatedB D) j * design B D j k * design B D j q) =
        fun j => ind (treatedB D) j * (design B D j k * design B D j q) := by funext j; ring
    rw [this]
    ring
  have hb := hβ.deriv (s := ind (treatedB D)) (fun j => by simp [ind]) hM
  have hv : ∀ j, HasDerivAt (fun t => acrtD B' (β t) (D j))
      (∑ k, B' (D j) k * alrOLS (ind (treatedB D)) (fun _ => 1) (fun j => dy j - fitted (design B D) (β 0) j) (design B D)
        (fun l k => n / m * A l k) i (some k)) 0 := by
    intro j
    unfold acrtD
    exact HasDerivAt.fun_sum fun k _ => (hb (some k)).const_mul _
  have hD : mean (fun j => (1:ℝ) * ind (treatedB D) j) ≠ 0 := by
    rw [ne_eq, mean_eq_zero]
    simp only [one_mul]
    rw [show (∑ j, (ind (treatedB D) j : ℝ)) = m by simp [ind, hm]]
    exact hm0
  have h := hasDerivAt_ratio (fun _ => (1:ℝ)) i (a := fun j _ => ind (treatedB D) j) (a' := fun _ => 0)
    (fun j => hasDerivAt_const _ _) hv hD
  refine h.congr_deriv ?_
  have hmean : mean (fun j => (1:ℝ) * ind (treatedB D) j) = m / n := by
    unfold mean
    simp [ind, hm, hn]
  have hacrt : wmean (fun j => (1:ℝ) * ind (treatedB D) j) (fun j => acrtD B' (β 0) (D j)) = acrtOverall B' (β 0) D :=
    acrtW_one B' (β 0) D
  rw [hmean, hacrt]
  have hz : mean (fun j : ι => (1:ℝ) * 0 * (acrtD B' (β 0) (D j) - acrtOverall B' (β 0) D)) = 0 := by
    rw [mean_eq_zero]; simp
  rw [hz]
  have hlast : mean (fun j => (1:ℝ) * ind (treatedB D) j * ∑ k, B' (D j) k *
      alrOLS (ind (treatedB D)) (fun _ => 1) (fun j => dy j - fitted (design B D) (β 0) j) (design B D)
        (fun l k => n / m * A l k) i (some k)) =
      m / n * ∑ k, alrOLS (ind (treatedB D)) (fun _ => 1) (fun j => dy j - fitted (design B D) (β 0) j) (design B D)
        (fun l k => n / m * A l k) i k * avgDeriv B' D k := by
    rw [Fintype.sum_option]
    simp only [avgDeriv, mul_zero, zero_add]
    rw [Finset.mul_sum]
    unfold mean
    simp only [Finset.mul_sum]
    rw [Finset.sum_comm, Finset.sum_div]
    refine Finset.sum_congr rfl fun k _ => ?_
    rw [meanOver_eq]
    unfold mean
    rw [← hn, ← hm]
    rw [show (∑ j, (1:ℝ) * ind (treatedB D) j * (B' (D j) k * alrOLS (ind (treatedB D)) (fun _ => 1)
      (fun j => dy j - fitted (design B D) (β 0) j) (design B D) (fun l k => n / m * A l k) i (some k))) =
      (∑ j, ind (treatedB D) j * B' (D j) k) * alrOLS (ind (treatedB D)) (fun _ => 1)
      (fun j => dy j - fitted (design B D) (β 0) j) (design B D) (fun l k => n / m * A l k) i (some k) by
        rw [Finset.sum_mul]; exact Finset.sum_congr rfl fun j _ => by ring]
    field_simp
  rw [hlast]
  unfold acrtIF
  by_cases hi : treatedB D i = true
  · have e : ∑ k, alrOLS (ind (treatedB D)) (fun _ => 1) (fun j => dy j - fitted (design B D) (β 0) j) (design B D)
        (fun l k => n / m * A l k) i k * avgDeriv B' D k =
        n / m * ∑ k, (∑ l, (dy i - fitted (design B D) (β 0) i) * design B D i l * A l k) * avgDeriv B' D k := by
      rw [Finset.mul_sum]
      refine Finset.sum_congr rfl fun k _ => ?_
      unfold alrOLS
      rw [ind_true hi, Finset.sum_mul, Finset.sum_mul, Finset.mul_sum]
      exact Finset.sum_congr rfl fun l _ => by ring
    rw [e, if_pos hi, ind_true hi]
    field_simp
    ring
  · have hi' : treatedB D i = false := by simpa using hi
    rw [if_neg hi, ind_false hi']
    have e : ∑ k, alrOLS (ind (treatedB D)) (fun _ => 1) (fun j => dy j - fitted (design B D) (β 0) j) (design B D)
        (fun l k => n / m * A l k) i k * avgDeriv B' D k = 0 := by
      refine Finset.sum_eq_zero fun k _ => ?_
      unfold alrOLS
      rw [ind_false hi']
      simp
    rw [e]; simp

/-- **C100 (violated).** Whenever the cell contains a unit outside the cohort and unit `i` has nonzero influence, the reported
influence (for a data set consisting of this cell) is not the derivative of the estimate. -/
theorem C100_scale_violated (B B' : ℝ → κ → ℝ) (A : Option κ → Option κ → ℝ) (D dy : ι → ℝ) (β : ℝ → Option κ → ℝ) (i : ι)
    (ht : ∃ i, 0 < D i) (hc : ∃ j, D j = 0) (hβ : RefitOLS (fun _ => 1) i (treatedB D) (design B D) dy β)
    (hA : IsBread B D A) (hne : acrtIF B B' A (β 0) D dy i ≠ 0) :
    ¬ HasDerivAt (fun t => acrtW B' (β t) D (upw (fun _ => 1) i t))
      (cellColumn (Fintype.card ι : ℝ) (acrtIF B B' A (β 0) D dy) i) 0 := by
  intro h
  have : Nonempty ι := ⟨i⟩
  have h2 := (C100_jackknife B B' A D dy β i ht hβ hA).unique h
  unfold cellColumn at h2
  rw [div_self card_ne, one_mul] at h2
  have h3 := mul_left_eq_self₀.1 h2
  rcases h3 with h3 | h3
  · rw [div_eq_one_iff_eq (card_treated_ne ht)] at h3
    have h4 : (Finset.univ.filter fun j => treatedB D j = true).card = Fintype.card ι := by exact_mod_cast h3.symm
    rw [← Finset.card_univ, Finset.card_filter_eq_iff] at h4
    obtain ⟨j, hj⟩ := hc
    have := h4 j (Finset.mem_univ j)
    simp [treatedB, hj] at this
  · exact hne h3

end Real

/-! ### A concrete cell: one comparison unit, two treated units with doses 1 and 2, basis `d²` -/

/-- Doses of the example cell. -/
def exD {K : Type*} [Field K] : Fin 3 → K := ![0, 1, 2]
/-- Changes of the example cell. -/
def exDy {K : Type*} [Field K] : Fin 3 → K := ![3, 1, 4]
/-- Basis `d²`. -/
def exB {K : Type*} [Field K] (d : K) (_ : Unit) : K := d * d
/-- Its derivative. -/
def exB' {K : Type*} [Field K] (d : K) (_ : Unit) : K := 2 * d
/-- Coefficients. -/
def exβ {K : Type*} [Field K] : Option Unit → K
  | none => 0
  | some _ => 1
/-- Bread of the example cell. -/
def exA {K : Type*} [Field K] : Option Unit → Option Unit → K
  | none, none => 34 / 9
  | some _, some _ => 4 / 9
  | _, _ => -10 / 9

lemma exTreated {K : Type*} [Field K] [LinearOrder K] [IsStrictOrderedRing K] :
    (Finset.univ.filter fun i : Fin 3 => treatedB (exD (K := K)) i = true) = {1, 2} := by
  ext i
  simp only [Finset.mem_filter, Finset.mem_univ, true_and, treatedB, decide_eq_true_eq]
  fin_cases i <;> simp [exD]

lemma exFit {K : Type*} [Field K] [LinearOrder K] [IsStrictOrderedRing K] : IsFit exB (exD (K := K)) exDy exβ := by
  intro k
  rw [exTreated]
  rcases k with _ | k <;> simp [Fintype.sum_option, design, rowAt, exB, exD, exDy, exβ] <;> norm_num

lemma exBread {K : Type*} [Field K] [LinearOrder K] [IsStrictOrderedRing K] : IsBread exB (exD (K := K)) exA := by
  intro k m
  unfold meanOver
  rw [exTreated]
  rcases k with _ | k <;> rcases m with _ | m <;>
    simp [Fintype.sum_option, design, rowAt, exB, exD, exA] <;> norm_num

lemma exRefit : RefitOLS (fun _ => 1) 1 (treatedB (exD (K := ℝ))) (design exB exD) exDy (fun _ => exβ) where
  diff := fun k => differentiableAt_const _
  fit := Filter.Eventually.of_forall fun t k => by
    rw [exTreated]
    rcases k with _ | k <;> simp [Fintype.sum_option, design, rowAt, exB, exD, exDy, exβ] <;> norm_num

lemma exIF {K : Type*} [Field K] [LinearOrder K] [IsStrictOrderedRing K] :
    acrtIF exB exB' exA exβ (exD (K := K)) exDy 1 = -1 := by
  unfold acrtIF acrtOverall meanOver
  rw [exTreated]
  simp [Fintype.sum_option, design, rowAt, exB, exB', exD, exDy, exβ, acrtD, treatedB, fitted]
  norm_num

example : IsFit exB (exD (K := ℚ)) exDy exβ ∧ (∃ i, 0 < exD (K := ℚ) i) ∧
    meanOver (treatedB (exD (K := ℚ))) (exDy (K := ℚ)) - meanOver (controlB (exD (K := ℚ))) exDy = -1 / 2 :=
  ⟨exFit, ⟨1, by simp [exD]⟩, by decide +kernel⟩
example : FullRank (fun _ => (1 : ℚ)) (treatedB (exD (K := ℚ))) (design exB exD) ∧
    ∀ i, 0 < exD (K := ℚ) i → exDy i = (exβ none : ℚ) + ∑ k, exB (exD i) k * exβ (some k) := by
  refine ⟨fun v hv => ?_, fun i hi => ?_⟩
  · have h0 := hv none
    have h1 := hv (some ())
    rw [exTreated] at h0 h1
    simp [Fintype.sum_option, design, rowAt, exB, exD] at h0 h1
    have e1 : v (some ()) = 0 := by linarith
    have e0 : v none = 0 := by linarith
    funext k
    rcases k with _ | ⟨⟩ <;> simp [e0, e1]
  · fin_cases i <;> simp [exD, exDy, exB, exβ] at hi ⊢; norm_num
example : (∃ i, 0 < exD (K := ℝ) i) ∧ (∃ j, exD (K := ℝ) j = 0) ∧
    RefitOLS (fun _ => 1) 1 (treatedB (exD (K := ℝ))) (design exB exD) exDy (fun _ => exβ) ∧
    IsBread exB (exD (K := ℝ)) exA ∧ acrtIF exB exB' exA exβ (exD (K := ℝ)) exDy 1 ≠ 0 :=
  ⟨⟨1, by simp [exD]⟩, ⟨0, by simp [exD]⟩, exRefit, exBread, by rw [exIF]; norm_num⟩
/-- The dose-weighted level of the example cell is 0, the mean difference is -1/2. -/
example : eventLevel (fun _ => 1) (exD (K := ℚ)) exDy = 0 ∧
    meanOver (treatedB (exD (K := ℚ))) (exDy (K := ℚ)) - meanOver (controlB (exD (K := ℚ))) exDy = -1 / 2 := by decide +kernel
example : ∃ (D : Fin 3 → ℚ) (c : ℚ), 0 < c ∧ (∀ i, D i = 0 ∨ D i = c) ∧ ∃ i, 0 < D i :=
  ⟨![0, 2, 2], 2, by norm_num, by decide +kernel, 1, by norm_num⟩

/-- **C100 (violated, standard error).** The reported variance of a cell's ACRT, `Σ IF²/n²`, is `Σ ψ²/(units in the cell)²`: adding
comparison units, which cannot affect the slope, shrinks it; the sandwich variance is `Σ ψ²/(treated units)²`. -/
theorem C100_variance_violated [Field K] (nAll : K) (hn : nAll ≠ 0) (ψ : ι → K) :
    (∑ i, cellColumn nAll ψ i ^ 2) / nAll ^ 2 = (∑ i, ψ i ^ 2) / (Fintype.card ι : K) ^ 2 := by
  unfold cellColumn
  simp only [mul_pow, div_pow]
  rw [← Finset.mul_sum]
  have := pow_ne_zero 2 hn
  by_cases hc : (Fintype.card ι : K) = 0
  · simp [hc]
  · field_simp

end Verif.Cont
