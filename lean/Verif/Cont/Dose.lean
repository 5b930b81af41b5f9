import Verif.Cont.Cell
import Verif.Cont.Subset
import Verif.Cont.Agg

set_option linter.unusedSectionVars false
set_option linter.unusedSimpArgs false

/-!
# Continuous treatment: uncertainty of the dose results (C101, C109)

Models `_compute_dose_influence_functions`, `moderndid/didcont/estimation/process_dose.py:207-288`.
-/

namespace Verif.Cont

open Verif.DR

section Model
variable {K : Type*} [Field K] [DecidableEq K]

/-- Number of units with nonzero ACRT influence, `n_treated_by_group`, `process_dose.py:249,253`. -/
def nonzeroCount (col : List K) : ℕ := col.countP fun v => decide (v ≠ 0)

/-- One dose of `att_d_influence` (or `acrt_d_influence`) for one cell, `process_dose.py:262-286`: the `i`-th row of
`x_expanded @ bread @ basis.T` (`rows`) is added to the `i`-th unit with a nonzero ACRT influence; `weight` is the cell's
overall weight.  The comparison term (275-278) is over `comparison_mask`, the units with nonzero ATT influence and zero ACRT
influence: both matrices are the same array, so the mask is empty. -/
def curveColumn (weight nObs : K) (col rows : List K) : List K :=
  scatter (col.map fun v => decide (v ≠ 0)) (rows.map fun r => weight * (nObs / (nonzeroCount col : K)) * r)

end Model

/-! ### C109: alignment of the curve's influence -/

section Align
variable {U K : Type*} [Field K] [DecidableEq K]

lemma scatter_map_filter [DecidableEq U] (us : List U) (s : U → Bool) (f : U → K) :
    scatter (us.map s) ((us.filter s).map f) = us.map fun u => if s u = true then f u else 0 := by
  induction us with
  | nil => rfl
  | cons u us ih =>
    cases h : s u
    · rw [List.map_cons, h, List.filter_cons, h]
      simp [scatter, ih, h]
    · rw [List.map_cons, h, List.filter_cons, h]
      simp [scatter, ih, h]

/-- **C109 (alignment).** If exactly the treated units have a nonzero ACRT influence, every treated unit's row of the curve's
influence is its own contribution times `weight · n / (number of treated units)`, and every other unit's is zero. -/
theorem C109_aligned [DecidableEq U] (us : List U) (treated : U → Bool) (ψ contrib : U → K) (weight nObs : K)
    (h : ∀ u ∈ us, (treated u = true ↔ ψ u ≠ 0)) :
    curveColumn weight nObs (us.map ψ) ((us.filter treated).map contrib) =
      us.map fun u => if treated u = true then weight * (nObs / ((us.filter treated).length : K)) * contrib u else 0 := by
  have hmask : us.map (fun u => decide (ψ u ≠ 0)) = us.map treated := by
    refine List.map_congr_left fun u hu => ?_
    have := h u hu
    cases ht : treated u
    · rw [ht] at this
      simp only [Bool.false_eq_true, false_iff] at this
      simpa using this
    · simpa using this.1 ht
  have hcount : nonzeroCount (us.map ψ) = (us.filter treated).length := by
    unfold nonzeroCount
    rw [List.countP_map, ← List.countP_eq_length_filter]
    refine List.countP_congr fun u hu => ?_
    have := h u hu
    simp [this]
  unfold curveColumn
  rw [hcount, List.map_map, List.map_map]
  have : ((fun v => decide (v ≠ 0)) ∘ ψ) = fun u => decide (ψ u ≠ 0) := rfl
  rw [this, hmask, scatter_map_filter]
  rfl

/-- **C109 (violated, alignment).** A treated unit whose ACRT influence happens to be zero shifts all later contributions to the
wrong units (here units 1 and 2 are treated, unit 1 has influence zero: unit 2 receives the contribution of unit 1). -/
theorem C109_shift_violated :
    curveColumn (1 : ℚ) 3 [0, 5, 0] [10, 20] = [0, 30, 0] ∧
    ([0, 5, 0].zip [true, true, false]).map (fun p => if p.2 = true then p.1 else 7) = [(0:ℚ), 5, 7] := by
  decide +kernel

example : curveColumn (1 : ℚ) 3 [2, 5, 0] [10, 20] = [15, 30, 0] := by decide +kernel

end Align

/-! ### Derivatives -/

section Real
variable {ι κ : Type*} [Fintype ι] [Fintype κ] [DecidableEq ι] [DecidableEq κ]

/-- Overall ATT with unit weights `w` (the regression drops out by `C99_att_overall`). -/
noncomputable def attW (D dy w : ι → ℝ) : ℝ :=
  wmean (fun j => w j * ind (treatedB D) j) dy - wmean (fun j => w j * ind (controlB D) j) dy

/-- ATT curve at dose `d` with unit weights `w` and refitted coefficients `β`. -/
noncomputable def attCurveW (B : ℝ → κ → ℝ) (β : Option κ → ℝ) (D dy w : ι → ℝ) (d : ℝ) : ℝ :=
  (∑ k, rowAt B d k * β k) - wmean (fun j => w j * ind (controlB D) j) dy

/-- Units selected by a mask. -/
noncomputable def sizeOf' (s : ι → Bool) : ℝ := ((Finset.univ.filter fun j => s j = true).card : ℝ)

lemma group_mean_deriv (s : ι → Bool) (dy : ι → ℝ) (i : ι) (hs : ∃ j, s j = true) :
    HasDerivAt (fun t => wmean (fun j => upw (fun _ => 1) i t j * ind s j) dy)
      (if s i = true then (Fintype.card ι : ℝ) / sizeOf' s * (dy i - meanOver s dy) else 0) 0 := by
  have : Nonempty ι := ⟨i⟩
  have hsz : sizeOf' s ≠ 0 := by
    obtain ⟨j, hj⟩ := hs
    have : (Finset.univ.filter fun j => s j = true).card ≠ 0 := Finset.card_ne_zero.2 ⟨j, by simp [hj]⟩
    unfold sizeOf'; exact_mod_cast this
  have hn : (Fintype.card ι : ℝ) ≠ 0 := card_ne
  have hmean : mean (fun j => (1:ℝ) * ind s j) = sizeOf' s / (Fintype.card ι : ℝ) := by
    unfold mean sizeOf'
    simp [ind]
  have hD : mean (fun j => (1:ℝ) * ind s j) ≠ 0 := by rw [hmean]; exact div_ne_zero hsz hn
  have h := hasDerivAt_ratio (fun _ => (1:ℝ)) i (a := fun j _ => ind s j) (a' := fun _ => 0) (v := fun j _ => dy j)
    (v' := fun _ => 0) (fun j => hasDerivAt_const _ _) (fun j => hasDerivAt_const _ _) hD
  refine h.congr_deriv ?_
  have hw : wmean (fun j => (1:ℝ) * ind s j) (fun j => dy j) = meanOver s dy := by
    rw [wmean_eq]
    unfold meanOver
    simp only [one_mul]
    rw [sum_ind]
    simp [ind]
  have hz1 : mean (fun j : ι => (1:ℝ) * 0 * (dy j - meanOver s dy)) = 0 := by rw [mean_eq_zero]; simp
  have hz2 : mean (fun j : ι => (1:ℝ) * ind s j * 0) = 0 := by rw [mean_eq_zero]; simp
  rw [hw, hz1, hz2, hmean]
  by_cases hi : s i = true
  · rw [if_pos hi, ind_true hi]; field_simp; ring
  · have hi' : s i = false := by simpa using hi
    rw [if_neg hi, ind_false hi']; simp

/-- **C101.** The true influence of unit `i` on the overall ATT of a cell: deviation from the cohort's mean change for its own
units, minus the deviation from the comparison mean for comparison units. -/
theorem C101_true_influence (D dy : ι → ℝ) (i : ι) (ht : ∃ j, 0 < D j) (hc : ∃ j, D j = 0) :
    HasDerivAt (fun t => attW D dy (upw (fun _ => 1) i t))
      ((if 0 < D i then (Fintype.card ι : ℝ) / sizeOf' (treatedB D) * (dy i - meanOver (treatedB D) dy) else 0) -
        (if D i = 0 then (Fintype.card ι : ℝ) / sizeOf' (controlB D) * (dy i - meanOver (controlB D) dy) else 0)) 0 := by
  unfold attW
  have h1 := group_mean_deriv (treatedB D) dy i (by obtain ⟨j, hj⟩ := ht; exact ⟨j, by simp [treatedB, hj]⟩)
  have h2 := group_mean_deriv (controlB D) dy i (by obtain ⟨j, hj⟩ := hc; exact ⟨j, by simp [controlB, hj]⟩)
  refine (h1.fun_sub h2).congr_deriv ?_
  simp [treatedB, controlB]

/-- `attW` with unit weights is the ATT the cell reports. -/
theorem attW_one (B : ℝ → κ → ℝ) (D dy : ι → ℝ) (β : Option κ → ℝ) (hβ : IsFit B D dy β) [Nonempty ι] :
    attW D dy (fun _ => 1) = attOverall B β D dy := by
  have h : ∀ s : ι → Bool, wmean (fun j => (1:ℝ) * ind s j) dy = meanOver s dy := by
    intro s
    rw [wmean_eq]
    unfold meanOver
    simp only [one_mul]
    rw [sum_ind]
    simp [ind]
  rw [C99_att_overall B D dy β hβ]
  unfold attW
  rw [h, h]

/-- **C101 (violated).** The influence function reported for the overall ATT (here: one cell, which is the whole data set, overall
weight one) is not the derivative of the overall ATT at any comparison unit whose change differs from the comparison mean. -/
theorem C101_reported_violated (B B' : ℝ → κ → ℝ) (A : Option κ → Option κ → ℝ) (D dy : ι → ℝ) (β : Option κ → ℝ) (i : ι)
    (ht : ∃ j, 0 < D j) (hi : D i = 0) (hne : dy i ≠ meanOver (controlB D) dy) :
    ¬ HasDerivAt (fun t => attW D dy (upw (fun _ => 1) i t))
      ((doseInfluences [1] [cellColumn (Fintype.card ι : ℝ) (acrtIF B B' A β D dy)]).1 i) 0 := by
  intro h
  have : Nonempty ι := ⟨i⟩
  have h2 := (C101_true_influence D dy i ht ⟨i, hi⟩).unique h
  have hz : acrtIF B B' A β D dy i = 0 := by simp [acrtIF, treatedB, hi]
  simp only [doseInfluences, combineIF, List.zip_cons_cons, List.zip_nil_right, List.map_cons, List.map_nil, List.sum_cons,
    List.sum_nil, cellColumn, hz, mul_zero, add_zero, hi, lt_irrefl, if_false, if_true, zero_sub] at h2
  have hsz : sizeOf' (controlB D) ≠ 0 := by
    have : (Finset.univ.filter fun j => controlB D j = true).card ≠ 0 :=
      Finset.card_ne_zero.2 ⟨i, by simp [controlB, hi]⟩
    unfold sizeOf'; exact_mod_cast this
  have := neg_eq_zero.1 h2
  rcases mul_eq_zero.1 this with h3 | h3
  · exact (div_ne_zero card_ne hsz) h3
  · exact hne (sub_eq_zero.1 h3)

/-- **C109.** The true influence of unit `i` on the ATT curve at dose `d`: for a unit of the cohort it is
`n/n_treated · score · bread · basis(d)` — the contribution the code uses — and for a comparison unit
`-n/n_comparison · (change - comparison mean)`. -/
theorem C109_jackknife (B : ℝ → κ → ℝ) (A : Option κ → Option κ → ℝ) (D dy : ι → ℝ) (β : ℝ → Option κ → ℝ) (i : ι) (d : ℝ)
    (ht : ∃ i, 0 < D i) (hc : ∃ j, D j = 0) (hβ : RefitOLS (fun _ => 1) i (treatedB D) (design B D) dy β)
    (hA : IsBread B D A) :
    HasDerivAt (fun t => attCurveW B (β t) D dy (upw (fun _ => 1) i t) d)
      ((if 0 < D i then (Fintype.card ι : ℝ) / sizeOf' (treatedB D) *
          ∑ k, (∑ l, (dy i - fitted (design B D) (β 0) i) * design B D i l * A l k) * rowAt B d k else 0) -
        (if D i = 0 then (Fintype.card ι : ℝ) / sizeOf' (controlB D) * (dy i - meanOver (controlB D) dy) else 0)) 0 := by
  have : Nonempty ι := ⟨i⟩
  have hM : IsGramInv (fun j => (1:ℝ) * ind (treatedB D) j) (design B D)
      (fun l k => (Fintype.card ι : ℝ) / sizeOf' (treatedB D) * A l k) := by
    intro k l
    rw [← hA k l]
    refine Finset.sum_congr rfl fun q _ => ?_
    rw [meanOver_eq]
    have : (fun j => (1:ℝ) * ind (treatedB D) j * design B D j k * design B D j q) =
        fun j => ind (treatedB D) j * (design B D j k * design B D j q) := by funext j; ring
    rw [this]
    unfold sizeOf'
    ring
  have hb := hβ.deriv (s := ind (treatedB D)) (fun j => by simp [ind]) hM
  have h1 : HasDerivAt (fun t => ∑ k, rowAt B d k * β t k) _ 0 :=
    HasDerivAt.fun_sum (u := Finset.univ) fun k _ => (hb k).const_mul (rowAt B d k)
  have h2 := group_mean_deriv (controlB D) dy i (by obtain ⟨j, hj⟩ := hc; exact ⟨j, by simp [controlB, hj]⟩)
  unfold attCurveW
  refine (h1.fun_sub h2).congr_deriv ?_
  have hcb : (controlB D i = true) = (D i = 0) := by simp [controlB]
  simp only [hcb]
  congr 1
  by_cases hi : 0 < D i
  · have hi' : treatedB D i = true := by simp [treatedB, hi]
    rw [if_pos hi, Finset.mul_sum]
    refine Finset.sum_congr rfl fun k _ => ?_
    unfold alrOLS
    rw [ind_true hi', Finset.mul_sum, Finset.sum_mul, Finset.mul_sum]
    exact Finset.sum_congr rfl fun l _ => by ring
  · have hi' : treatedB D i = false := by simp [treatedB, hi]
    rw [if_neg hi]
    refine Finset.sum_eq_zero fun k _ => ?_
    unfold alrOLS
    rw [ind_false hi']
    simp

end Real

example : (∃ j, 0 < exD (K := ℝ) j) ∧ exD (K := ℝ) 0 = 0 ∧
    ∃ dy : Fin 4 → ℝ, ∃ D : Fin 4 → ℝ, (∃ j, 0 < D j) ∧ D 0 = 0 ∧ dy 0 ≠ meanOver (controlB D) dy := by
  refine ⟨⟨1, by simp [exD]⟩, by simp [exD], ![0, 2, 1, 1], ![0, 0, 1, 2], ⟨2, by simp⟩, by simp, ?_⟩
  have : (Finset.univ.filter fun i : Fin 4 => controlB (![0, 0, 1, 2] : Fin 4 → ℝ) i = true) = {0, 1} := by
    ext i
    simp only [Finset.mem_filter, Finset.mem_univ, true_and, controlB, decide_eq_true_eq]
    fin_cases i <;> simp
  unfold meanOver
  rw [this]
  simp

end Verif.Cont
