import Verif.Boot.Quant

/-!
# Intervals of the two-period estimators from bootstrap draws: C215

The blocks after the draws in `drdid/estimators/*.py` (for instance `drdid_panel.py:162-184`) and
`didtriple/estimators/ddd_panel.py:247-265`, `ddd_rc.py:243-262`.  `z` stands for
`norm.ppf(0.75) - norm.ppf(0.25)`, a positive constant.  A failed draw is `none` (NaN) and is left out by
`nan_policy="omit"` and `nanquantile`.
-/

set_option linter.unusedSectionVars false
set_option linter.unusedSimpArgs false

namespace Verif.Boot

variable {K : Type*} [Field K] [LinearOrder K] [IsStrictOrderedRing K] [FloorRing K]

/-- `stats.iqr(x, nan_policy="omit") / z`, `drdid_panel.py:164,176`. -/
def iqrSe (z : K) (xs : List K) : K := (percentile (3 / 4) xs - percentile (1 / 4) xs) / z

/-- Reported interval. -/
structure BootCI (K : Type*) where
  se : K
  lci : K
  uci : K

/-- The guarded block, `drdid_panel.py:164-172,176-184`, `ddd_panel.py:258-265`: `xs` are the centred draws (draws minus
estimate for the weighted bootstrap, the draws themselves for the multiplier bootstrap). -/
def guardedCI (z alpha att : K) (xs : List K) : BootCI K :=
  let se := iqrSe z xs
  if 0 < se then
    let cv := percentile (1 - alpha) (xs.map fun x => |x / se|)
    ⟨se, att - cv * se, att + cv * se⟩
  else ⟨se, att, att⟩

/-- The weighted bootstrap: draws that failed are left out, the others centred at the estimate, `drdid_panel.py:173-184`. -/
def weightedCI (z alpha att : K) (draws : List (Option K)) : BootCI K :=
  guardedCI z alpha att ((draws.filterMap id).map fun b => b - att)

lemma iqrSe_mul (z : K) (xs : List K) (hne : xs ≠ []) {c : K} (hc : 0 < c) :
    iqrSe z (xs.map fun x => c * x) = c * iqrSe z xs := by
  unfold iqrSe
  rw [percentile_smul hc hne (by norm_num) (by norm_num), percentile_smul hc hne (by norm_num) (by norm_num)]
  ring

/-- **C215 (half-width).** If the spread of the draws is not zero, the interval is symmetric around the estimate and its
half-width is the `1 - alpha` quantile of the absolute centred draws: the standard error cancels. -/
theorem C215_half_width (z alpha att : K) (h0 : 0 ≤ alpha) (h1 : alpha ≤ 1) (xs : List K)
    (hse : 0 < (guardedCI z alpha att xs).se) (hne : xs ≠ []) :
    (guardedCI z alpha att xs).uci = att + percentile (1 - alpha) (xs.map fun x => |x|) ∧
    (guardedCI z alpha att xs).lci = att - percentile (1 - alpha) (xs.map fun x => |x|) := by
  have hs : 0 < iqrSe z xs := by
    unfold guardedCI at hse
    dsimp only at hse
    by_cases h : 0 < iqrSe z xs
    · exact h
    · rw [if_neg h] at hse; exact hse
  have key : percentile (1 - alpha) (xs.map fun x => |x / iqrSe z xs|) * iqrSe z xs =
      percentile (1 - alpha) (xs.map fun x => |x|) := by
    have : (xs.map fun x => |x|) = (xs.map fun x => |x / iqrSe z xs|).map fun y => iqrSe z xs * y := by
      rw [List.map_map]
      refine List.map_congr_left fun x _ => ?_
      show |x| = iqrSe z xs * |x / iqrSe z xs|
      rw [abs_div, abs_of_pos hs, mul_div_cancel₀ _ hs.ne']
    rw [this, percentile_smul hs (by simpa using hne) (by linarith) (by linarith), mul_comm]
  unfold guardedCI
  dsimp only
  rw [if_pos hs]
  dsimp only
  rw [key]
  exact ⟨rfl, rfl⟩

/-- **C215 (coverage).** Of the draws of the weighted bootstrap that did not fail, `B` say, at least
`⌊(B-1)(1-alpha)⌋ + 1` lie inside the reported interval, provided the standard error is not zero. -/
theorem C215_coverage (z alpha att : K) (h0 : 0 ≤ alpha) (h1 : alpha ≤ 1) (draws : List (Option K))
    (hse : 0 < (weightedCI z alpha att draws).se) (hne : draws.filterMap id ≠ []) :
    ⌊(((draws.filterMap id).length - 1 : ℕ) : K) * (1 - alpha)⌋₊ + 1 ≤
      (draws.filterMap id).countP fun b =>
        decide ((weightedCI z alpha att draws).lci ≤ b ∧ b ≤ (weightedCI z alpha att draws).uci) := by
  obtain ⟨hu, hl⟩ := C215_half_width z alpha att h0 h1 ((draws.filterMap id).map fun b => b - att) hse
    (by simpa using hne)
  have hcov := percentile_cover (q := 1 - alpha) (xs := ((draws.filterMap id).map fun b => b - att).map fun x => |x|)
    (by simpa using hne) (by linarith) (by linarith)
  rw [List.length_map, List.length_map, List.countP_map, List.countP_map] at hcov
  refine hcov.trans (le_of_eq ?_)
  refine List.countP_congr fun b _ => ?_
  unfold weightedCI
  rw [hu, hl]
  simp only [Function.comp_apply, decide_eq_true_eq]
  rw [abs_le]
  constructor
  · rintro ⟨ha, hb⟩; constructor <;> linarith
  · rintro ⟨ha, hb⟩; constructor <;> linarith

/-- **C215 (units).** Measuring the outcome in other units (factor `c > 0`) multiplies estimate, standard error and limits
by `c`. -/
theorem C215_units (z alpha att c : K) (hc : 0 < c) (h0 : 0 ≤ alpha) (h1 : alpha ≤ 1) (xs : List K) (hne : xs ≠ []) :
    guardedCI z alpha (c * att) (xs.map fun x => c * x) =
      ⟨c * (guardedCI z alpha att xs).se, c * (guardedCI z alpha att xs).lci, c * (guardedCI z alpha att xs).uci⟩ := by
  have hs := iqrSe_mul z xs hne hc
  by_cases h : 0 < iqrSe z xs
  · have h' : 0 < iqrSe z (xs.map fun x => c * x) := by rw [hs]; exact mul_pos hc h
    have hse : 0 < (guardedCI z alpha att xs).se := by unfold guardedCI; dsimp only; rw [if_pos h]; exact h
    have hse' : 0 < (guardedCI z alpha (c * att) (xs.map fun x => c * x)).se := by
      unfold guardedCI; dsimp only; rw [if_pos h']; exact h'
    obtain ⟨hu, hl⟩ := C215_half_width z alpha att h0 h1 xs hse hne
    obtain ⟨hu', hl'⟩ := C215_half_width z alpha (c * att) h0 h1 _ hse' (by simpa using hne)
    have hp : percentile (1 - alpha) ((xs.map fun x => c * x).map fun x => |x|) =
        c * percentile (1 - alpha) (xs.map fun x => |x|) := by
      have : ((xs.map fun x => c * x).map fun x => |x|) = (xs.map fun x => |x|).map fun y => c * y := by
        rw [List.map_map, List.map_map]
        refine List.map_congr_left fun x _ => ?_
        show |c * x| = c * |x|
        rw [abs_mul, abs_of_pos hc]
      rw [this, percentile_smul hc (by simpa using hne) (by linarith) (by linarith)]
    have e1 : (guardedCI z alpha (c * att) (xs.map fun x => c * x)).se = c * (guardedCI z alpha att xs).se := by
      unfold guardedCI; dsimp only; rw [if_pos h', if_pos h]; exact hs
    rw [hp] at hu' hl'
    obtain ⟨r, hr⟩ : ∃ r, r = guardedCI z alpha (c * att) (xs.map fun x => c * x) := ⟨_, rfl⟩
    rw [← hr] at hu' hl' e1 ⊢
    cases r
    simp only [BootCI.mk.injEq]
    dsimp only at hu' hl' e1
    refine ⟨e1, ?_, ?_⟩
    · rw [hl', hl]; ring
    · rw [hu', hu]; ring
  · have h' : ¬ 0 < iqrSe z (xs.map fun x => c * x) := by
      rw [hs]; intro hp; exact h (pos_of_mul_pos_right hp hc.le)
    unfold guardedCI
    dsimp only
    rw [if_neg h', if_neg h, hs]

/-- **C215 (order).** The order of the draws does not matter. -/
theorem C215_order (z alpha att : K) (xs ys : List K) (h : xs.Perm ys) :
    guardedCI z alpha att xs = guardedCI z alpha att ys := by
  have h1 : iqrSe z xs = iqrSe z ys := by
    unfold iqrSe; rw [percentile_perm h, percentile_perm h]
  unfold guardedCI
  dsimp only
  rw [h1, percentile_perm (h.map _)]

/-- Draws around the estimate 2. -/
def exWDraws : List (Option ℚ) := [some 1, some 3, none, some 4, some 2, some 0]

example : 0 < (weightedCI (13489795 / 10000000) (1/20) (2 : ℚ) exWDraws).se ∧ exWDraws.filterMap id ≠ [] := by
  decide +kernel

/-- **C215 (degenerate spread, violated).** When the central half of the draws coincide, the interval shrinks to the point
estimate although the draws do vary, even if none of them equals the estimate: here every draw lies outside. -/
theorem C215_degenerate_violated : ∃ (draws : List (Option ℚ)),
    (weightedCI (13489795 / 10000000) (1/20) 2 draws).lci = 2 ∧
    (weightedCI (13489795 / 10000000) (1/20) 2 draws).uci = 2 ∧
    ∀ b ∈ draws.filterMap id, ¬ ((weightedCI (13489795 / 10000000) (1/20) 2 draws).lci ≤ b ∧
      b ≤ (weightedCI (13489795 / 10000000) (1/20) 2 draws).uci) :=
  ⟨[some 0, some 3, some 3, some 3, some 3, some 3, some 9], by decide +kernel⟩

end Verif.Boot
