import Verif.Honest.ArpCore
import Verif.Honest.GaussEx
import Mathlib.Tactic.IntervalCases
import Mathlib.Tactic.NormNum

/-!
# C157-C159: size of the conditional tests
-/

set_option linter.unusedSectionVars false
set_option linter.unusedSimpArgs false

namespace Verif.Honest

open MeasureTheory ProbabilityTheory Finset

/-! ## Specification -/

/-- Correlation of the moments `i` and `B`. -/
noncomputable def rowCorr (n : ℕ) (sigma A : ℕ → ℕ → ℝ) (i B : ℕ) : ℝ :=
  bilin n (A i) (A B) sigma / (Real.sqrt (quadForm n (A i) sigma) * Real.sqrt (quadForm n (A B) sigma))

/-- Covariance matrix: symmetric, positive semi-definite; no moment with a standard deviation under the floor, no two moments with a
correlation different from 1 by less than the threshold. -/
structure RegularMoments (n m : ℕ) (sigma A : ℕ → ℕ → ℝ) : Prop where
  symm : ∀ i < n, ∀ j < n, sigma i j = sigma j i
  psd : ∀ c, 0 ≤ quadForm n c sigma
  sd : ∀ i < m, arpTol ≤ Real.sqrt (quadForm n (A i) sigma)
  corr : ∀ i < m, ∀ B < m, rowCorr n sigma A i B = 1 ∨ arpTol < |rowCorr n sigma A i B - 1|

/-- The moment inequalities hold at the true coefficients. -/
def NullHolds (n m : ℕ) (A : ℕ → ℕ → ℝ) (d beta : ℕ → ℝ) : Prop := ∀ i < m, dotN n (A i) beta ≤ d i

/-! ## Lemmas -/

theorem rowSd_eq (n m : ℕ) (sigma A : ℕ → ℕ → ℝ) (h : RegularMoments n m sigma A) (i : ℕ) (hi : i < m) :
    rowSd n sigma A i = Real.sqrt (quadForm n (A i) sigma) ∧ 0 < rowSd n sigma A i := by
  have e : rowSd n sigma A i = Real.sqrt (quadForm n (A i) sigma) := by
    unfold rowSd
    rw [etaSigmaEta_quad, max_eq_left (h.sd i hi)]
  exact ⟨e, e ▸ lt_of_lt_of_le arpTol_pos (h.sd i hi)⟩

theorem bilin_scale (n : ℕ) (a b : ℕ → ℝ) (sigma : ℕ → ℕ → ℝ) (r t : ℝ) :
    bilin n (fun j => r * a j) (fun j => t * b j) sigma = r * t * bilin n a b sigma := by
  unfold bilin
  rw [mul_sum]
  refine sum_congr rfl fun i _ => ?_
  rw [mul_sum]
  exact sum_congr rfl fun j _ => by ring

theorem quad_bilin (n : ℕ) (a : ℕ → ℝ) (sigma : ℕ → ℕ → ℝ) : quadForm n a sigma = bilin n a a sigma := rfl

theorem bilin_corr (n m : ℕ) (sigma A : ℕ → ℕ → ℝ) (h : RegularMoments n m sigma A) (i B : ℕ) (hi : i < m) (hB : B < m) :
    bilin n (aTilde n sigma A i) (aTilde n sigma A B) sigma = rowCorr n sigma A i B := by
  have e : bilin n (aTilde n sigma A i) (aTilde n sigma A B) sigma =
      1 / rowSd n sigma A i * (1 / rowSd n sigma A B) * bilin n (A i) (A B) sigma := bilin_scale n (A i) (A B) sigma _ _
  rw [e, (rowSd_eq n m sigma A h i hi).1, (rowSd_eq n m sigma A h B hB).1]
  unfold rowCorr
  have h1 := lt_of_lt_of_le arpTol_pos (h.sd i hi)
  have h2 := lt_of_lt_of_le arpTol_pos (h.sd B hB)
  field_simp

theorem unit_variance (n m : ℕ) (sigma A : ℕ → ℕ → ℝ) (h : RegularMoments n m sigma A) (B : ℕ) (hB : B < m) :
    etaSigmaEta n (aTilde n sigma A B) sigma = 1 := by
  rw [etaSigmaEta_quad, quad_bilin, bilin_corr n m sigma A h B B hB hB]
  unfold rowCorr
  have h2 := lt_of_lt_of_le arpTol_pos (h.sd B hB)
  rw [← quad_bilin, Real.mul_self_sqrt (h.psd _)]
  have : 0 < quadForm n (A B) sigma := Real.sqrt_pos.1 h2
  exact div_self this.ne'

theorem arpTol_le_one : arpTol ≤ 1 := by unfold arpTol; norm_num

theorem regular_resolved (n m : ℕ) (sigma A : ℕ → ℕ → ℝ) (h : RegularMoments n m sigma A) (B : ℕ) (hB : B < m) :
    Resolved n m sigma (aTilde n sigma A) B := by
  intro i hi
  have hu := unit_variance n m sigma A h B hB
  have e : ∑ j ∈ range n, (aTilde n sigma A i j - aTilde n sigma A B j) *
      (sigmaEta n (aTilde n sigma A B) sigma j / etaSigmaEta n (aTilde n sigma A B) sigma) = rowCorr n sigma A i B - 1 := by
    rw [hu]
    have e1 : ∀ a : ℕ → ℝ, ∑ j ∈ range n, a j * sigmaEta n (aTilde n sigma A B) sigma j = bilin n a (aTilde n sigma A B) sigma := by
      intro a
      unfold bilin sigmaEta
      refine sum_congr rfl fun j _ => ?_
      rw [mul_sum]
      exact sum_congr rfl fun k _ => by ring
    have e2 : ∑ j ∈ range n, (aTilde n sigma A i j - aTilde n sigma A B j) * (sigmaEta n (aTilde n sigma A B) sigma j / 1) =
        ∑ j ∈ range n, aTilde n sigma A i j * sigmaEta n (aTilde n sigma A B) sigma j -
        ∑ j ∈ range n, aTilde n sigma A B j * sigmaEta n (aTilde n sigma A B) sigma j := by
      rw [← sum_sub_distrib]
      exact sum_congr rfl fun j _ => by ring
    rw [e2, e1, e1, bilin_corr n m sigma A h i B hi hB, ← quad_bilin, ← etaSigmaEta_quad, hu]
  rw [e]
  rcases h.corr i hi B hB with h1 | h1
  · left; rw [h1]; ring
  · right; exact h1

theorem scaled_null (n m : ℕ) (sigma A : ℕ → ℕ → ℝ) (d beta : ℕ → ℝ) (h : RegularMoments n m sigma A) (hn : NullHolds n m A d beta)
    (B : ℕ) (hB : B < m) : dotN n (aTilde n sigma A B) beta ≤ dTilde n sigma A d B := by
  have hp := (rowSd_eq n m sigma A h B hB).2
  have e : dotN n (aTilde n sigma A B) beta = dotN n (A B) beta / rowSd n sigma A B := by
    unfold dotN aTilde
    rw [sum_div]
    exact sum_congr rfl fun j _ => by ring
  rw [e]
  exact div_le_div_of_nonneg_right (hn B hB) hp.le

variable {Ω : Type*} [MeasurableSpace Ω]

theorem coef_aemeas (P : Measure Ω) (n : ℕ) (y : Ω → ℕ → ℝ) (beta : ℕ → ℝ) (sigma : ℕ → ℕ → ℝ) (h : GaussianCoefs P n y beta sigma) :
    AEMeasurable (fun ω (j : Fin n) => y ω j) P := by
  refine aemeasurable_pi_lambda _ fun j => ?_
  have h1 := h fun k => if k = (j : ℕ) then 1 else 0
  have e : (fun ω => ∑ k ∈ range n, (if k = (j : ℕ) then (1 : ℝ) else 0) * y ω k) = fun ω => y ω j := by
    funext ω
    simp only [ite_mul, one_mul, zero_mul]
    rw [sum_ite_eq' (range n) (j : ℕ) (fun k => y ω k), if_pos (mem_range.2 j.2)]
  rw [e] at h1
  exact aemeasurable_of_map_neZero (by rw [h1]; infer_instance)

theorem dot_agree (n : ℕ) (c y : ℕ → ℝ) : dotN n c (extV n fun j => y j) = dotN n c y := by
  unfold dotN
  exact sum_congr rfl fun j hj => by simp [extV, mem_range.1 hj]

theorem coefLaw_of (P : Measure Ω) (n : ℕ) (y : Ω → ℕ → ℝ) (beta : ℕ → ℝ) (sigma : ℕ → ℕ → ℝ) (h : GaussianCoefs P n y beta sigma) :
    CoefLaw n (P.map fun ω (j : Fin n) => y ω j) beta sigma := by
  intro c
  rw [AEMeasurable.map_map_of_aemeasurable (dot_meas n c).aemeasurable (coef_aemeas P n y beta sigma h)]
  have e : ((fun v : Fin n → ℝ => dotN n c (extV n v)) ∘ fun ω (j : Fin n) => y ω j) = fun ω => ∑ j ∈ range n, c j * y ω j := by
    funext ω
    exact dot_agree n c (y ω)
  rw [e]
  exact h c

theorem moment_agree (n : ℕ) (At : ℕ → ℕ → ℝ) (dt y : ℕ → ℝ) : moment n At dt (extV n fun j => y j) = moment n At dt y := by
  funext i
  unfold moment
  rw [dot_agree]

theorem reject_agree (alpha : ℝ) (n m : ℕ) (sigma At : ℕ → ℕ → ℝ) (dt : ℕ → ℝ) (B : ℕ) (y : ℕ → ℝ) :
    RejectB alpha n m sigma At dt B (extV n fun j => y j) ↔ RejectB alpha n m sigma At dt B y := by
  have e : slackRhs n At dt B (residual n sigma (At B) (extV n fun j => y j)) = slackRhs n At dt B (residual n sigma (At B) y) := by
    funext i
    unfold slackRhs
    congr 1
    refine sum_congr rfl fun j hj => ?_
    unfold residual
    rw [dot_agree]
    simp [extV, mem_range.1 hj]
  unfold RejectB
  rw [e, dot_agree]

/-- The size bound for any event contained in the rejection regions. -/
theorem size_bound (P : Measure Ω) (n m : ℕ) (y : Ω → ℕ → ℝ) (beta : ℕ → ℝ) (sigma A : ℕ → ℕ → ℝ) (dt : ℕ → ℝ) (alpha : ℝ)
    (h : GaussianCoefs P n y beta sigma) (hreg : RegularMoments n m sigma A)
    (hnull : ∀ B < m, dotN n (aTilde n sigma A B) beta ≤ dt B) (ha0 : 0 < alpha) (ha1 : alpha < 1) (U : ℕ → Set ℝ)
    (hU : ∀ B, IsUpperSet (U B)) (hUm : ∀ B, MeasurableSet (U B)) (κ : ℝ) (hκ : 0 ≤ κ)
    (hfirst : P {ω | ∃ B < m, IsFirstMax m (moment n (aTilde n sigma A) dt (y ω)) B ∧ dotN n (aTilde n sigma A B) (y ω) ∈ U B} ≤
      ENNReal.ofReal κ)
    (R : Set Ω) (hR : ∀ ω ∈ R, ∃ B < m, IsFirstMax m (moment n (aTilde n sigma A) dt (y ω)) B ∧
      (dotN n (aTilde n sigma A B) (y ω) ∈ U B ∨ RejectB alpha n m sigma (aTilde n sigma A) dt B (y ω))) :
    P.real R ≤ (1 - alpha) * κ + alpha := by
  set At := aTilde n sigma A
  have hae := coef_aemeas P n y beta sigma h
  have hlaw := coefLaw_of P n y beta sigma h
  set ν := P.map fun ω (j : Fin n) => y ω j with hν
  have hcore := core_all n m ν beta sigma At dt alpha hlaw hreg.psd hreg.symm
    (fun B hB => by rw [unit_variance n m sigma A hreg B hB]; exact arpTol_le_one) (regular_resolved n m sigma A hreg) hnull ha0 ha1 U hU hUm
  have h1 : P R ≤ ν {v | ∃ B < m, IsFirstMax m (moment n At dt (extV n v)) B ∧
      (dotN n (At B) (extV n v) ∈ U B ∨ RejectB alpha n m sigma At dt B (extV n v))} := by
    refine le_trans (measure_mono ?_) (Measure.le_map_apply hae _)
    intro ω hω
    obtain ⟨B, hB, hB2, hB3⟩ := hR ω hω
    refine ⟨B, hB, ?_, ?_⟩
    · rw [moment_agree]; exact hB2
    · rw [reject_agree, dot_agree]; exact hB3
  have h2 : ν {v | ∃ B < m, IsFirstMax m (moment n At dt (extV n v)) B ∧ dotN n (At B) (extV n v) ∈ U B} ≤ ENNReal.ofReal κ := by
    rw [hν, Measure.map_apply_of_aemeasurable hae]
    · refine le_trans (measure_mono ?_) hfirst
      rintro ω ⟨B, hB, hB2, hB3⟩
      refine ⟨B, hB, ?_, ?_⟩
      · rw [moment_agree] at hB2; exact hB2
      · rw [dot_agree] at hB3; exact hB3
    · have : {v : Fin n → ℝ | ∃ B < m, IsFirstMax m (moment n At dt (extV n v)) B ∧ dotN n (At B) (extV n v) ∈ U B} =
          ⋃ B ∈ range m, {v | IsFirstMax m (moment n At dt (extV n v)) B ∧ dotN n (At B) (extV n v) ∈ U B} := by
        ext v
        simp only [Set.mem_iUnion, Finset.mem_range, Set.mem_ofPred_eq, exists_prop]
      rw [this]
      exact Finset.measurableSet_biUnion _ fun B _ => (firstMax_meas n m At dt B).inter ((dot_meas n (At B)) (hUm B))
  have h3 : P R ≤ ENNReal.ofReal ((1 - alpha) * κ + alpha) := by
    refine h1.trans (hcore.trans ?_)
    rw [ENNReal.ofReal_add (mul_nonneg (by linarith) hκ) ha0.le, ENNReal.ofReal_mul (by linarith)]
    gcongr
  unfold Measure.real
  exact ENNReal.toReal_le_of_le_ofReal (by nlinarith [mul_nonneg (show 0 ≤ 1 - alpha by linarith) hκ]) h3

theorem below_mono (c : Ext) (x x' : ℝ) (h : x ≤ x') (hb : c.below x) : c.below x' := by
  cases c with
  | negInf => trivial
  | posInf => exact hb
  | nan => exact hb
  | fin c => exact lt_of_lt_of_le hb h

/-- The truncation points at the maximum, and what a rejection means on the scale of the statistic. -/
theorem reject_means (nb : Bool) (n m : ℕ) (y : ℕ → ℝ) (sigma A : ℕ → ℕ → ℝ) (dt : ℕ → ℝ) (alpha : ℝ)
    (hreg : RegularMoments n m sigma A) (ha0 : 0 < alpha) (ha1 : alpha < 1) (B : ℕ)
    (hB : IsFirstMax m (moment n (aTilde n sigma A) dt y) B) :
    ∃ lo up, vBounds nb n m y sigma (aTilde n sigma A) dt B = some (lo, up) ∧
      dotN n (aTilde n sigma A B) y ∈ truncSet lo up ∧
      (∃ c, norminvp (1 - alpha) lo up (dt B) (sigmaBar n sigma (aTilde n sigma A B)) = some c ∧ c ≠ Ext.nan ∧
        (c.below (dotN n (aTilde n sigma A B) y) → RejectB alpha n m sigma (aTilde n sigma A) dt B y)) := by
  have hu := unit_variance n m sigma A hreg B hB.1
  have hv : arpTol ≤ |etaSigmaEta n (aTilde n sigma A B) sigma| := by rw [hu, abs_one]; exact arpTol_le_one
  have hr := regular_resolved n m sigma A hreg B hB.1
  have hs0 : 0 < sigmaBar n sigma (aTilde n sigma A B) := by unfold sigmaBar; rw [hu, Real.sqrt_one]; exact one_pos
  have hin := sel_trunc m B _ _ _ ((firstMax_sel n m sigma (aTilde n sigma A) dt y B hB.1).1 hB)
  refine ⟨_, _, vBounds_eq nb n m y sigma _ dt B hv hr, hin, ?_⟩
  set lo := loOf m (slackCoef n sigma (aTilde n sigma A) B) (slackRhs n (aTilde n sigma A) dt B (residual n sigma (aTilde n sigma A B) y)) with hlo
  set up := upOf m (slackCoef n sigma (aTilde n sigma A) B) (slackRhs n (aTilde n sigma A) dt B (residual n sigma (aTilde n sigma A B) y)) with hup
  have hl : lo ≠ Bnd.nan := accum_not_nan _ _
  have hun : up ≠ Bnd.nan := accum_not_nan _ _
  have hex : ∃ c, norminvp (1 - alpha) lo up (dt B) (sigmaBar n sigma (aTilde n sigma A B)) = some c ∧ c ≠ Ext.nan := by
    rcases proper_or lo up hl hun with hP | ⟨l, u, h1, h2, hlu⟩
    · exact ⟨_, norminvp_eq _ _ _ (by linarith) (by linarith) hs0 lo up hP, by simp⟩
    · have e : l = u := by
        have a := hin
        rw [h1, h2] at a
        have a1 : l ≤ _ := a.1
        have a2 : _ ≤ u := a.2
        exact le_antisymm (a1.trans a2) hlu
      subst e
      exact ⟨Ext.fin l, by rw [h1, h2]; exact C155_point _ _ _ l hs0, by simp⟩
  obtain ⟨c, hc, hcn⟩ := hex
  exact ⟨c, hc, hcn, fun hb => crit_below _ _ _ _ (by linarith) (by linarith) hs0 lo up hl hun hin c hc hb⟩

theorem max0_below (c : Ext) (hc : c ≠ Ext.nan) (x : ℝ) (h : c.max0.below x) : c.below x := by
  cases c with
  | negInf => trivial
  | posInf => exact h
  | nan => exact absurd rfl hc
  | fin c => exact lt_of_le_of_lt (le_max_right 0 c) h

/-! ## A concrete case: two independent coefficients with unit variances, one inequality for each -/

/-- Two uncorrelated coefficients. -/
def idL (j : ℕ) (r : Fin 2) : ℝ := if j = r.val then 1 else 0

/-- One inequality for each coefficient. -/
def idA (i j : ℕ) : ℝ := if i = j then 1 else 0

theorem id_quad (c : ℕ → ℝ) : quadForm 2 c (covOf 2 idL) = c 0 ^ 2 + c 1 ^ 2 := by
  rw [covOf_quad]
  simp [Fin.sum_univ_two, sum_range_succ, idL]

theorem id_regular : RegularMoments 2 2 (covOf 2 idL) idA where
  symm i _ j _ := by unfold covOf; exact sum_congr rfl fun r _ => mul_comm _ _
  psd c := by rw [id_quad]; positivity
  sd i hi := by
    rw [id_quad]
    have h : arpTol ≤ 1 := by unfold arpTol; norm_num
    interval_cases i <;> simpa [idA] using h
  corr i hi B hB := by
    have h : arpTol < 1 := by unfold arpTol; norm_num
    unfold rowCorr
    rw [id_quad, id_quad]
    interval_cases i <;> interval_cases B <;>
      simp [idA, bilin, covOf, idL, sum_range_succ, Fin.sum_univ_two, h]

/-! ## C157: the test used for the lower bound on `M` -/

open Classical in
/-- C157.  The test never fails on regular inputs. -/
theorem C157_returns (nb : Bool) (n m : ℕ) (hm : 0 < m) (mValue : ℝ) (y : ℕ → ℝ) (sigma A : ℕ → ℕ → ℝ) (alpha : ℝ) (d : ℕ → ℝ)
    (hreg : RegularMoments n m sigma A) (ha0 : 0 < alpha) (ha1 : alpha < 1) :
    ∃ b, maxTest nb n m mValue y sigma A alpha d = some b := by
  have hB := argmax_first m hm (moment n (aTilde n sigma A) (dTilde n sigma A fun i => d i * mValue) y)
  obtain ⟨lo, up, h1, _, c, h3, _⟩ := reject_means nb n m y sigma A (dTilde n sigma A fun i => d i * mValue) alpha hreg ha0 ha1 _ hB
  refine ⟨decide (c.below (moment n (aTilde n sigma A) (dTilde n sigma A fun i => d i * mValue) y
    (argmaxFirst m (moment n (aTilde n sigma A) (dTilde n sigma A fun i => d i * mValue) y)))), ?_⟩
  unfold maxTest
  dsimp only
  rw [if_neg hm.ne', h1]
  simp only [Option.bind_some, h3, Option.map_some]

/-- C157.  `test_in_identified_set_max`: for normal coefficients satisfying the inequalities `A beta <= M d` with `M d >= 0`, the
probability of a rejection is at most `alpha`, whatever the coefficients, the covariance matrix and the number of inequalities. -/
theorem C157_size (P : Measure Ω) (nb : Bool) (n m : ℕ) (hm : 0 < m) (mValue : ℝ) (y : Ω → ℕ → ℝ) (beta : ℕ → ℝ)
    (sigma A : ℕ → ℕ → ℝ) (alpha : ℝ) (d : ℕ → ℝ) (h : GaussianCoefs P n y beta sigma) (hreg : RegularMoments n m sigma A)
    (hnull : NullHolds n m A (fun i => d i * mValue) beta) (hd : ∀ i < m, 0 ≤ d i * mValue) (ha0 : 0 < alpha) (ha1 : alpha < 1) :
    P.real {ω | maxTest nb n m mValue (y ω) sigma A alpha d = some true} ≤ alpha := by
  have key := size_bound P n m y beta sigma A (dTilde n sigma A fun i => d i * mValue) alpha h hreg
    (scaled_null n m sigma A _ beta hreg hnull) ha0 ha1 (fun _ => ∅) (fun _ => isUpperSet_empty) (fun _ => MeasurableSet.empty) 0 le_rfl
    (by
      have : {ω | ∃ B < m, IsFirstMax m (moment n (aTilde n sigma A) (dTilde n sigma A fun i => d i * mValue) (y ω)) B ∧
        dotN n (aTilde n sigma A B) (y ω) ∈ (∅ : Set ℝ)} = ∅ := by ext ω; simp
      rw [this]
      simp)
    {ω | maxTest nb n m mValue (y ω) sigma A alpha d = some true} (by
      intro ω hω
      have hB := argmax_first m hm (moment n (aTilde n sigma A) (dTilde n sigma A fun i => d i * mValue) (y ω))
      set B := argmaxFirst m (moment n (aTilde n sigma A) (dTilde n sigma A fun i => d i * mValue) (y ω)) with hBdef
      obtain ⟨lo, up, h1, _, c, h3, _, h4⟩ :=
        reject_means nb n m (y ω) sigma A (dTilde n sigma A fun i => d i * mValue) alpha hreg ha0 ha1 B hB
      refine ⟨B, hB.1, hB, Or.inr (h4 ?_)⟩
      have hω' : maxTest nb n m mValue (y ω) sigma A alpha d = some true := hω
      unfold maxTest at hω'
      dsimp only at hω'
      rw [if_neg hm.ne', ← hBdef, h1] at hω'
      simp only [Option.bind_some, h3, Option.map_some, Option.some.injEq, decide_eq_true_eq] at hω'
      refine below_mono c _ _ ?_ hω'
      unfold moment
      have : 0 ≤ dTilde n sigma A (fun i => d i * mValue) B := div_nonneg (hd B hB.1) (rowSd_eq n m sigma A hreg B hB.1).2.le
      linarith)
  linarith

/-- The grid search of `estimate_lowerbound_m_conditional_test`, `conditional.py:123-147`: the smallest accepted value of the grid,
infinity (`none`) if there is none. -/
noncomputable def lowerM (nb : Bool) (n m : ℕ) (grid : List ℝ) (y : ℕ → ℝ) (sigma A : ℕ → ℕ → ℝ) (alpha : ℝ) (d : ℕ → ℝ) : Option ℝ :=
  (grid.filter fun M => decide (maxTest nb n m M y sigma A alpha d = some false)).min?

/-- C157.  The reported lower bound on `M` exceeds a true value `M0 >= 0` on the grid with probability at most `alpha`. -/
theorem C157_lower_bound (P : Measure Ω) [IsProbabilityMeasure P] (nb : Bool) (n m : ℕ) (hm : 0 < m) (grid : List ℝ) (y : Ω → ℕ → ℝ)
    (beta : ℕ → ℝ) (sigma A : ℕ → ℕ → ℝ) (alpha : ℝ) (h : GaussianCoefs P n y beta sigma)
    (hreg : RegularMoments n m sigma A) (M0 : ℝ) (hM : M0 ∈ grid) (hM0 : 0 ≤ M0) (hnull : NullHolds n m A (fun _ => M0) beta)
    (ha0 : 0 < alpha) (ha1 : alpha < 1) :
    P.real {ω | ∀ M, lowerM nb n m grid (y ω) sigma A alpha (fun _ => 1) = some M → M0 < M} ≤ alpha := by
  have key := C157_size P nb n m hm M0 y beta sigma A alpha (fun _ => 1) h hreg (by simpa [NullHolds] using hnull)
    (fun i _ => by simpa using hM0) ha0 ha1
  refine le_trans (measureReal_mono ?_) key
  intro ω hω
  obtain ⟨b, hb⟩ := C157_returns nb n m hm M0 (y ω) sigma A alpha (fun _ => 1) hreg ha0 ha1
  cases b with
  | true => exact hb
  | false =>
    exfalso
    have hmem : M0 ∈ grid.filter fun M => decide (maxTest nb n m M (y ω) sigma A alpha (fun _ => 1) = some false) := by
      rw [List.mem_filter]
      exact ⟨hM, by simpa using hb⟩
    cases hmin : (grid.filter fun M => decide (maxTest nb n m M (y ω) sigma A alpha (fun _ => 1) = some false)).min? with
    | none =>
      rw [List.min?_eq_none_iff] at hmin
      rw [hmin] at hmem
      simp at hmem
    | some M =>
      have h1 := hω M hmin
      have h2 := (List.min?_eq_some_iff.1 hmin).2 M0 hmem
      linarith

/-- Two inequalities `beta_j <= 1`, the first binding: a rejection at the 5% level has probability at most 5%. -/
example : (stdNormals 2).real {z | maxTest true 2 2 1 (gaussOf 2 (fun j => 1 - j) idL z) (covOf 2 idL) idA (1 / 20) (fun _ => 1) =
    some true} ≤ 1 / 20 :=
  C157_size (stdNormals 2) true 2 2 (by norm_num) 1 _ (fun j => 1 - j) (covOf 2 idL) idA (1 / 20) (fun _ => 1)
    (gauss_exists 2 2 _ idL) id_regular
    (by intro i hi; interval_cases i <;> simp [dotN, idA, sum_range_succ]) (by intro i _; norm_num) (by norm_num) (by norm_num)

/-! ## C158: the least-favourable hybrid -/

/-- C158.  `test_in_identified_set_lf_hybrid`: if the critical value of the first stage is exceeded by the largest studentised
estimation error with probability at most `kappa`, then for normal coefficients satisfying `A beta <= d`, `d >= 0`, the hybrid test
rejects with probability at most `alpha` (`0 <= kappa < alpha < 1`). -/
theorem C158_size (P : Measure Ω) (nb : Bool) (n m : ℕ) (hm : 0 < m) (y : Ω → ℕ → ℝ) (beta : ℕ → ℝ)
    (sigma A : ℕ → ℕ → ℝ) (alpha kappa lfCv : ℝ) (d : ℕ → ℝ) (h : GaussianCoefs P n y beta sigma) (hreg : RegularMoments n m sigma A)
    (hnull : NullHolds n m A d beta) (hd : ∀ i < m, 0 ≤ d i) (hk0 : 0 ≤ kappa) (hk : kappa < alpha) (ha1 : alpha < 1)
    (hlf : P {ω | ∃ i < m, lfCv < dotN n (A i) (fun j => y ω j - beta j) / Real.sqrt (quadForm n (A i) sigma)} ≤ ENNReal.ofReal kappa) :
    P.real {ω | lfTest nb n m (y ω) sigma A d alpha kappa lfCv = some false} ≤ alpha := by
  set dt := dTilde n sigma A d with hdt
  set at' := alphaTilde alpha kappa with hat
  have hk1 : 0 < 1 - kappa := by linarith
  have hat0 : 0 < at' := div_pos (by linarith) hk1
  have hat1 : at' < 1 := by rw [hat, alphaTilde, div_lt_one hk1]; linarith
  have hdtnn : ∀ B < m, 0 ≤ dt B := fun B hB => div_nonneg (hd B hB) (rowSd_eq n m sigma A hreg B hB).2.le
  have key := size_bound P n m y beta sigma A dt at' h hreg
    (scaled_null n m sigma A _ beta hreg hnull) hat0 hat1 (fun B => Set.Ioi (lfCv + dt B)) (fun _ => isUpperSet_Ioi _)
    (fun _ => measurableSet_Ioi) kappa hk0
    (by
      refine le_trans (measure_mono ?_) hlf
      rintro ω ⟨B, hB, _, hgt⟩
      refine ⟨B, hB, ?_⟩
      have h1 : lfCv + dt B < dotN n (aTilde n sigma A B) (y ω) := hgt
      have h2 := scaled_null n m sigma A d beta hreg hnull B hB
      have e : dotN n (A B) (fun j => y ω j - beta j) / Real.sqrt (quadForm n (A B) sigma) =
          dotN n (aTilde n sigma A B) (y ω) - dotN n (aTilde n sigma A B) beta := by
        rw [← (rowSd_eq n m sigma A hreg B hB).1]
        unfold dotN aTilde
        rw [sum_div, ← sum_sub_distrib]
        exact sum_congr rfl fun j _ => by ring
      rw [e]
      linarith)
    {ω | lfTest nb n m (y ω) sigma A d alpha kappa lfCv = some false} (by
      intro ω hω
      have hB := argmax_first m hm (moment n (aTilde n sigma A) dt (y ω))
      set B := argmaxFirst m (moment n (aTilde n sigma A) dt (y ω)) with hBdef
      obtain ⟨lo, up, h1, _, c, h3, hcn, h4⟩ := reject_means nb n m (y ω) sigma A dt at' hreg hat0 hat1 B hB
      refine ⟨B, hB.1, hB, ?_⟩
      have hω' : lfTest nb n m (y ω) sigma A d alpha kappa lfCv = some false := hω
      unfold lfTest at hω'
      dsimp only at hω'
      rw [if_neg hm.ne', ← hdt, ← hBdef, ← hat] at hω'
      by_cases hf : lfCv < moment n (aTilde n sigma A) dt (y ω) B
      · left
        show lfCv + dt B < _
        unfold moment at hf
        linarith
      · right
        rw [if_neg hf, h1] at hω'
        simp only [Option.bind_some, h3, Option.map_some, Option.some.injEq, Bool.not_eq_false', decide_eq_true_eq] at hω'
        refine h4 (below_mono c _ _ ?_ (max0_below c hcn _ hω'))
        unfold moment
        have := hdtnn B hB.1
        linarith)
  have e : (1 - at') * kappa + at' = alpha := by
    rw [hat, alphaTilde]
    field_simp
    ring
  linarith

/-- Two inequalities, the first binding; the first stage critical value `10` is exceeded with probability at most 2%. -/
example : (stdNormals 2).real {z | lfTest true 2 2 (gaussOf 2 (fun j => 1 - j) idL z) (covOf 2 idL) idA (fun _ => 1) (1 / 20) (1 / 50) 10 =
      some false} ≤ 1 / 20 := by
  refine C158_size (stdNormals 2) true 2 2 (by norm_num) _ (fun j => 1 - j) (covOf 2 idL) idA (1 / 20) (1 / 50) 10 (fun _ => 1)
    (gauss_exists 2 2 _ idL) id_regular
    (by intro i hi; interval_cases i <;> simp [dotN, idA, sum_range_succ]) (by intro i _; norm_num) (by norm_num) (by norm_num)
    (by norm_num) ?_
  have hsub : {z : Fin 2 → ℝ | ∃ i < 2, 10 < dotN 2 (idA i) (fun j => gaussOf 2 (fun j => 1 - j) idL z j - (1 - j)) /
      Real.sqrt (quadForm 2 (idA i) (covOf 2 idL))} ⊆ {z | 10 ≤ |z 0|} ∪ {z | 10 ≤ |z 1|} := by
    rintro z ⟨i, hi, hz⟩
    rw [id_quad] at hz
    interval_cases i
    · left
      simp [dotN, idA, sum_range_succ, gaussOf, idL, Fin.sum_univ_two] at hz
      exact (hz.le).trans (le_abs_self _)
    · right
      simp [dotN, idA, sum_range_succ, gaussOf, idL, Fin.sum_univ_two] at hz
      exact (hz.le).trans (le_abs_self _)
  refine le_trans (measure_mono hsub) (le_trans (measure_union_le _ _) ?_)
  refine le_trans (add_le_add (coord_tail 2 0 10 (by norm_num)) (coord_tail 2 1 10 (by norm_num))) ?_
  rw [← ENNReal.ofReal_add (by norm_num) (by norm_num)]
  exact ENNReal.ofReal_le_ofReal (by norm_num)

/-! ## C159: the conditional test with homogeneous restrictions -/

/-- C159.  `test_in_identified_set` with `d = 0` (relative magnitudes; every restriction without a constant): for normal coefficients
satisfying `A beta <= 0` the probability of a rejection is at most `alpha`. -/
theorem C159_size (P : Measure Ω) (nb : Bool) (n m : ℕ) (hm : 0 < m) (y : Ω → ℕ → ℝ) (beta : ℕ → ℝ)
    (sigma A : ℕ → ℕ → ℝ) (alpha : ℝ) (h : GaussianCoefs P n y beta sigma) (hreg : RegularMoments n m sigma A)
    (hnull : NullHolds n m A (fun _ => 0) beta) (ha0 : 0 < alpha) (ha1 : alpha < 1) :
    P.real {ω | arpTest nb n m (y ω) sigma A (fun _ => 0) alpha = some false} ≤ alpha := by
  have hdt : dTilde n sigma A (fun _ => 0) = fun _ => 0 := by funext i; simp [dTilde]
  have key := size_bound P n m y beta sigma A (fun _ => 0) alpha h hreg
    (by have := scaled_null n m sigma A _ beta hreg hnull; rwa [hdt] at this) ha0 ha1 (fun _ => ∅) (fun _ => isUpperSet_empty)
    (fun _ => MeasurableSet.empty) 0 le_rfl
    (by
      have : {ω | ∃ B < m, IsFirstMax m (moment n (aTilde n sigma A) (fun _ => 0) (y ω)) B ∧
        dotN n (aTilde n sigma A B) (y ω) ∈ (∅ : Set ℝ)} = ∅ := by ext ω; simp
      rw [this]
      simp)
    {ω | arpTest nb n m (y ω) sigma A (fun _ => 0) alpha = some false} (by
      intro ω hω
      have hB := argmax_first m hm (moment n (aTilde n sigma A) (fun _ => 0) (y ω))
      set B := argmaxFirst m (moment n (aTilde n sigma A) (fun _ => 0) (y ω)) with hBdef
      obtain ⟨lo, up, h1, hin, c, h3, hcn, h4⟩ := reject_means nb n m (y ω) sigma A (fun _ => 0) alpha hreg ha0 ha1 B hB
      refine ⟨B, hB.1, hB, Or.inr (h4 ?_)⟩
      have hω' : arpTest nb n m (y ω) sigma A (fun _ => 0) alpha = some false := hω
      unfold arpTest arpCore at hω'
      dsimp only at hω'
      rw [if_neg hm.ne', hdt, ← hBdef, h1] at hω'
      have hmm : moment n (aTilde n sigma A) (fun _ => 0) (y ω) B = dotN n (aTilde n sigma A B) (y ω) := by unfold moment; ring
      rw [hmm] at hω'
      by_cases hpos : dotN n (aTilde n sigma A B) (y ω) ≤ 0
      · rw [if_pos hpos] at hω'
        simp at hω'
      · rw [if_neg hpos] at hω'
        have hna : ¬ lo.above (dotN n (aTilde n sigma A B) (y ω)) := by
          have hl := hin.1
          cases lo with
          | infinite => exact fun h => h
          | nan => exact fun h => h
          | fin l => exact not_lt.2 hl
        simp only [Option.bind_some, hna, if_false, h3, Option.map_some, Option.some.injEq, Bool.not_eq_false',
          decide_eq_true_eq] at hω'
        exact max0_below c hcn _ hω')
  linarith

/-- Two inequalities `beta_j <= 0`, the first binding. -/
example : (stdNormals 2).real {z | arpTest true 2 2 (gaussOf 2 (fun j => -j) idL z) (covOf 2 idL) idA (fun _ => 0) (1 / 20) =
    some false} ≤ 1 / 20 :=
  C159_size (stdNormals 2) true 2 2 (by norm_num) _ (fun j => -j) (covOf 2 idL) idA (1 / 20)
    (gauss_exists 2 2 _ idL) id_regular
    (by intro i hi; interval_cases i <;> simp [dotN, idA, sum_range_succ]) (by norm_num) (by norm_num)

end Verif.Honest
