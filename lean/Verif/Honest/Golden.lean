import Mathlib.Analysis.Real.Sqrt
import Mathlib.Analysis.SpecificLimits.Basic
import Mathlib.Tactic.Linarith
import Mathlib.Tactic.Ring
import Mathlib.Tactic.FieldSimp
import Mathlib.Tactic.LinearCombination
import Mathlib.Tactic.NormNum
import Mathlib.Tactic.Positivity

/-!
# C154: the search for the optimal standard deviation (`_optimize_h_bisection`, `fixed_length_ci.py:733-829`)

`f h` is `_compute_ci_half_length(h)`; `none` is NaN.  The result of the loop is `none` while it is running (fuel), `some none`
for the NaN returns and `some (some h)` for the value returned.
-/

set_option linter.unusedSectionVars false
set_option linter.unusedSimpArgs false

namespace Verif.Honest

/-- `golden_ratio`, `fixed_length_ci.py:798`. -/
noncomputable def golden : ℝ := (1 + Real.sqrt 5) / 2

/-- `tolerance`, `fixed_length_ci.py:797`. -/
noncomputable def goldenTol (hMin hMax : ℝ) (numPoints : ℕ) : ℝ := min ((hMax - hMin) / numPoints) (|hMax| * (1 / 1000000))

open Classical in
/-- The `while` loop, `fixed_length_ci.py:811-829`; state `h_lower, h_upper, h_mid_low, h_mid_high, ci_mid_low, ci_mid_high`. -/
noncomputable def goldenLoop (f : ℝ → Option ℝ) (tol : ℝ) : ℕ → ℝ → ℝ → ℝ → ℝ → ℝ → ℝ → Option (Option ℝ)
  | 0, _, _, _, _, _, _ => none
  | fuel + 1, lo, hi, mlo, mhi, clo, chi =>
    if |hi - lo| > tol then
      if clo < chi then
        match f (mhi - (mhi - lo) / golden) with
        | none => some none
        | some c => goldenLoop f tol fuel lo mhi (mhi - (mhi - lo) / golden) mlo c clo
      else
        match f (mlo + (hi - mlo) / golden) with
        | none => some none
        | some c => goldenLoop f tol fuel mlo hi mhi (mlo + (hi - mlo) / golden) chi c
    else some (some ((lo + hi) / 2))

/-- `_optimize_h_bisection`, `fixed_length_ci.py:797-829`. -/
noncomputable def goldenSearch (f : ℝ → Option ℝ) (hMin hMax : ℝ) (numPoints fuel : ℕ) : Option (Option ℝ) :=
  match f (hMax - (hMax - hMin) / golden), f (hMin + (hMax - hMin) / golden) with
  | some c, some d => goldenLoop f (goldenTol hMin hMax numPoints) fuel hMin hMax (hMax - (hMax - hMin) / golden)
      (hMin + (hMax - hMin) / golden) c d
  | _, _ => some none

/-! ### Facts about the ratio -/

theorem golden_gt : 3 / 2 < golden := by
  unfold golden
  have : 2 < Real.sqrt 5 := by
    rw [Real.lt_sqrt] <;> norm_num
  linarith

theorem golden_lt : golden < 2 := by
  unfold golden
  have : Real.sqrt 5 < 3 := by
    rw [Real.sqrt_lt'] <;> norm_num
  linarith

theorem golden_pos : 0 < golden := by linarith [golden_gt]

theorem golden_inv : 1 / golden = golden - 1 := by
  have h : golden * golden = golden + 1 := by
    unfold golden
    have : Real.sqrt 5 * Real.sqrt 5 = 5 := Real.mul_self_sqrt (by norm_num)
    nlinarith
  have := golden_pos
  field_simp
  linarith

/-- The ratio by which each step shrinks the bracket. -/
noncomputable def rho : ℝ := 1 / golden

theorem rho_sq : rho * rho = 1 - rho := by
  have h : golden * golden = golden + 1 := by
    unfold golden
    have : Real.sqrt 5 * Real.sqrt 5 = 5 := Real.mul_self_sqrt (by norm_num)
    nlinarith
  have hp := golden_pos
  unfold rho
  field_simp
  linarith

theorem rho_pos : 0 < rho := by unfold rho; have := golden_pos; positivity

theorem rho_lt : rho < 1 := by
  unfold rho
  rw [div_lt_one golden_pos]
  linarith [golden_gt]

theorem rho_half : 1 / 2 < rho := by
  unfold rho
  rw [div_lt_div_iff₀ (by norm_num) golden_pos]
  linarith [golden_lt]

theorem div_golden (x : ℝ) : x / golden = x * rho := by unfold rho; ring

/-! ### Specification -/

/-- `f` is strictly decreasing up to `m` and strictly increasing afterwards on `[a, b]`. -/
def Unimodal (f : ℝ → ℝ) (a b m : ℝ) : Prop :=
  (∀ x y, a ≤ x → x < y → y ≤ m → f y < f x) ∧ ∀ x y, m ≤ x → x < y → y ≤ b → f x < f y

/-- Every finite result of the search for a function without NaN: the loop invariant. -/
theorem golden_inv_loop (f : ℝ → Option ℝ) (tol a b : ℝ) (fuel : ℕ) (lo hi clo chi : ℝ) (r : ℝ)
    (hlo : a ≤ lo) (hhi : hi ≤ b) (hle : lo ≤ hi)
    (h1 : f (hi - (hi - lo) * rho) = some clo) (h2 : f (lo + (hi - lo) * rho) = some chi)
    (h : goldenLoop f tol fuel lo hi (hi - (hi - lo) * rho) (lo + (hi - lo) * rho) clo chi = some (some r)) :
    a ≤ r ∧ r ≤ b ∧ ∀ g : ℝ → ℝ, (∀ x y, f x = some y → y = g x) → ∀ m, Unimodal g a b m → lo ≤ m → m ≤ hi → |r - m| ≤ tol / 2 := by
  induction fuel generalizing lo hi clo chi with
  | zero => cases h
  | succ fuel ih =>
    rw [goldenLoop] at h
    have hrp := rho_pos
    have hrl := rho_lt
    have hrh := rho_half
    have hsq := rho_sq
    have hd : 0 ≤ (hi - lo) * rho := mul_nonneg (by linarith) hrp.le
    have hd1 : (hi - lo) * rho ≤ hi - lo := by nlinarith
    have e1 : lo + (lo + (hi - lo) * rho - lo) * rho = hi - (hi - lo) * rho := by
      linear_combination (hi - lo) * hsq
    have e2 : hi - (hi - (hi - (hi - lo) * rho)) * rho = lo + (hi - lo) * rho := by
      linear_combination -(hi - lo) * hsq
    split_ifs at h with hw hc
    · rw [div_golden] at h
      split at h
      · cases h
      · rename_i c hfc
        have := ih lo (lo + (hi - lo) * rho) c clo hlo (by linarith) (by linarith) hfc (by rw [e1]; exact h1)
          (by rw [e1]; exact h)
        refine ⟨this.1, this.2.1, fun g hg m hm hm1 hm2 => this.2.2 g hg m hm hm1 ?_⟩
        by_contra hcon
        rw [not_le] at hcon
        have g1 := hg _ _ h1
        have g2 := hg _ _ h2
        rcases eq_or_lt_of_le hle with heq | hlt
        · subst heq
          simp at hcon
          linarith
        · have := hm.1 (hi - (hi - lo) * rho) (lo + (hi - lo) * rho) (by linarith) (by nlinarith) hcon.le
          linarith
    · rw [div_golden] at h
      split at h
      · cases h
      · rename_i c hfc
        have := ih (hi - (hi - lo) * rho) hi chi c (by linarith) hhi (by linarith) (by rw [e2]; exact h2) hfc
          (by rw [e2]; exact h)
        refine ⟨this.1, this.2.1, fun g hg m hm hm1 hm2 => this.2.2 g hg m hm ?_ hm2⟩
        by_contra hcon
        rw [not_le] at hcon
        have g1 := hg _ _ h1
        have g2 := hg _ _ h2
        rcases eq_or_lt_of_le hle with heq | hlt
        · subst heq
          simp at hcon
          linarith
        · have := hm.2 (hi - (hi - lo) * rho) (lo + (hi - lo) * rho) hcon.le (by nlinarith) (by linarith)
          linarith
    · simp only [Option.some.injEq] at h
      subst h
      rw [not_lt, abs_of_nonneg (by linarith)] at hw
      refine ⟨by linarith, by linarith, fun g _ m _ h1 h2 => ?_⟩
      rw [abs_le]
      constructor <;> linarith

/-- C154: a value returned by the search lies between the two ends of the range. -/
theorem C154_in_range (f : ℝ → Option ℝ) (hMin hMax : ℝ) (numPoints fuel : ℕ) (hle : hMin ≤ hMax) (r : ℝ)
    (h : goldenSearch f hMin hMax numPoints fuel = some (some r)) : hMin ≤ r ∧ r ≤ hMax := by
  unfold goldenSearch at h
  rw [div_golden] at h
  split at h
  · rename_i c d hc hd
    have := golden_inv_loop f _ hMin hMax fuel hMin hMax c d r le_rfl le_rfl hle hc hd h
    exact ⟨this.1, this.2.1⟩
  · cases h

/-- C154: if the half-length has a single valley, the value returned is within half the tolerance of its lowest point. -/
theorem C154_minimiser (f : ℝ → Option ℝ) (g : ℝ → ℝ) (hg : ∀ x y, f x = some y → y = g x) (hMin hMax m : ℝ) (numPoints fuel : ℕ)
    (hm1 : hMin ≤ m) (hm2 : m ≤ hMax) (hm : Unimodal g hMin hMax m) (r : ℝ)
    (h : goldenSearch f hMin hMax numPoints fuel = some (some r)) : |r - m| ≤ goldenTol hMin hMax numPoints / 2 := by
  unfold goldenSearch at h
  rw [div_golden] at h
  split at h
  · rename_i c d hc hd
    exact (golden_inv_loop f _ hMin hMax fuel hMin hMax c d r le_rfl le_rfl (hm1.trans hm2) hc hd h).2.2 g hg m hm hm1 hm2
  · cases h

theorem golden_stops (f : ℝ → Option ℝ) (tol : ℝ) (k : ℕ) (lo hi clo chi : ℝ) (hle : lo ≤ hi) (hk : (hi - lo) * rho ^ k ≤ tol) :
    ∃ res, goldenLoop f tol (k + 1) lo hi (hi - (hi - lo) * rho) (lo + (hi - lo) * rho) clo chi = some res := by
  induction k generalizing lo hi clo chi with
  | zero =>
    rw [goldenLoop, if_neg]
    · exact ⟨_, rfl⟩
    · rw [abs_of_nonneg (by linarith)]
      simpa using hk
  | succ k ih =>
    rw [goldenLoop]
    have hrp := rho_pos
    have hrl := rho_lt
    have hsq := rho_sq
    have hd : 0 ≤ (hi - lo) * rho := mul_nonneg (by linarith) hrp.le
    have e1 : lo + (lo + (hi - lo) * rho - lo) * rho = hi - (hi - lo) * rho := by
      linear_combination (hi - lo) * hsq
    have e2 : hi - (hi - (hi - (hi - lo) * rho)) * rho = lo + (hi - lo) * rho := by
      linear_combination -(hi - lo) * hsq
    split_ifs with hw hc
    · rw [div_golden]
      split
      · exact ⟨_, rfl⟩
      · have := ih lo (lo + (hi - lo) * rho) (by assumption) clo (by linarith)
          (by rw [show (lo + (hi - lo) * rho - lo) * rho ^ k = (hi - lo) * rho ^ (k + 1) by ring]; exact hk)
        rw [e1] at this
        exact this
    · rw [div_golden]
      split
      · exact ⟨_, rfl⟩
      · have := ih (hi - (hi - lo) * rho) hi chi (by assumption) (by linarith)
          (by rw [show (hi - (hi - (hi - lo) * rho)) * rho ^ k = (hi - lo) * rho ^ (k + 1) by ring]; exact hk)
        rw [e2] at this
        exact this
    · exact ⟨_, rfl⟩

/-- C154: the search ends for every function, also one with NaN values, when the range is ordered, non-degenerate and
positive. -/
theorem C154_terminates (f : ℝ → Option ℝ) (hMin hMax : ℝ) (numPoints : ℕ) (hn : 0 < numPoints) (h0 : 0 < hMax)
    (hlt : hMin < hMax) : ∃ fuel res, goldenSearch f hMin hMax numPoints fuel = some res := by
  have htol : 0 < goldenTol hMin hMax numPoints := by
    unfold goldenTol
    refine lt_min (div_pos (by linarith) (by exact_mod_cast hn)) (mul_pos (abs_pos.2 h0.ne') (by norm_num))
  have hlim : Filter.Tendsto (fun k : ℕ => (hMax - hMin) * rho ^ k) Filter.atTop (nhds ((hMax - hMin) * 0)) :=
    (tendsto_pow_atTop_nhds_zero_of_lt_one rho_pos.le rho_lt).const_mul _
  rw [mul_zero] at hlim
  obtain ⟨k, hk⟩ := (hlim.eventually (gt_mem_nhds htol)).exists
  unfold goldenSearch
  rw [div_golden]
  split
  · rename_i c d _ _
    obtain ⟨res, hres⟩ := golden_stops f (goldenTol hMin hMax numPoints) k hMin hMax c d hlt.le hk.le
    exact ⟨k + 1, res, hres⟩
  · exact ⟨0, none, rfl⟩

/-- C154: a degenerate range is returned at once. -/
theorem C154_degenerate (f : ℝ → Option ℝ) (h c : ℝ) (hf : f h = some c) (numPoints fuel : ℕ) :
    goldenSearch f h h numPoints (fuel + 1) = some (some h) := by
  unfold goldenSearch
  simp only [sub_self, zero_div, sub_zero, add_zero, hf]
  rw [goldenLoop, if_neg]
  · congr 2; ring
  · simp [goldenTol, abs_nonneg]

/-- C154 (violated): when rounding puts the minimal standard deviation above the one of `get_min_bias_h` (they are equal with a
single pre-treatment period, and the former comes from a numerical solver), the tolerance is negative and the loop never ends,
unless some evaluation fails. -/
theorem C154_reversed_violated (f : ℝ → Option ℝ) (hf : ∀ h, (f h).isSome) (hMin hMax : ℝ) (hlt : hMax < hMin)
    (numPoints : ℕ) (hn : 0 < numPoints) (fuel : ℕ) : goldenSearch f hMin hMax numPoints fuel = none := by
  have htol : goldenTol hMin hMax numPoints < 0 :=
    (min_le_left _ _).trans_lt (div_neg_of_neg_of_pos (by linarith) (by exact_mod_cast hn))
  have key : ∀ fuel lo hi mlo mhi clo chi, goldenLoop f (goldenTol hMin hMax numPoints) fuel lo hi mlo mhi clo chi = none := by
    intro fuel
    induction fuel with
    | zero => intros; rfl
    | succ fuel ih =>
      intro lo hi mlo mhi clo chi
      rw [goldenLoop, if_pos (lt_of_lt_of_le htol (abs_nonneg _))]
      split_ifs
      · obtain ⟨c, hc⟩ := Option.isSome_iff_exists.1 (hf (mhi - (mhi - lo) / golden))
        rw [hc]
        exact ih _ _ _ _ _ _
      · obtain ⟨c, hc⟩ := Option.isSome_iff_exists.1 (hf (mlo + (hi - mlo) / golden))
        rw [hc]
        exact ih _ _ _ _ _ _
  obtain ⟨c, hc⟩ := Option.isSome_iff_exists.1 (hf (hMax - (hMax - hMin) / golden))
  obtain ⟨d, hd⟩ := Option.isSome_iff_exists.1 (hf (hMin + (hMax - hMin) / golden))
  unfold goldenSearch
  rw [hc, hd]
  exact key _ _ _ _ _ _ _

/-- A valley at `h = 3/2` in the range `[1, 2]`: the search ends within `1e-6` of it (the second tolerance is the smaller). -/
example : ∃ fuel r, goldenSearch (fun h => some ((h - 3 / 2) ^ 2)) 1 2 100 fuel = some (some r) ∧ |r - 3 / 2| ≤ 1 / 1000000 := by
  obtain ⟨fuel, res, h⟩ := C154_terminates (fun h => some ((h - 3 / 2) ^ 2)) 1 2 100 (by norm_num) (by norm_num) (by norm_num)
  have hnn : ∀ fuel lo hi mlo mhi clo chi tol, goldenLoop (fun h => some ((h - 3 / 2) ^ 2)) tol fuel lo hi mlo mhi clo chi ≠
      some none := by
    intro fuel
    induction fuel with
    | zero => intros; simp [goldenLoop]
    | succ fuel ih =>
      intros
      rw [goldenLoop]
      split_ifs
      · exact ih _ _ _ _ _ _ _
      · exact ih _ _ _ _ _ _ _
      · simp
  cases res with
  | none => exact absurd h (hnn _ _ _ _ _ _ _ _)
  | some r =>
    refine ⟨fuel, r, h, ?_⟩
    have := C154_minimiser _ (fun h => (h - 3 / 2) ^ 2) (fun x y hy => by simpa using hy.symm) 1 2 (3 / 2) 100 fuel
      (by norm_num) (by norm_num) ⟨fun x y _ _ _ => by nlinarith, fun x y _ _ _ => by nlinarith⟩ r h
    refine this.trans ?_
    have h2 : goldenTol 1 2 100 ≤ 2 * (1 / 1000000) := by
      unfold goldenTol
      refine (min_le_right _ _).trans ?_
      norm_num
    linarith

end Verif.Honest
