import Verif.Boot.Quant
import Mathlib.Tactic.FinCases

/-!
# Reported critical values, overall standard errors and the pre-test (C133-C136)
-/

set_option linter.unusedSectionVars false
set_option linter.unusedSimpArgs false

namespace Verif.Boot

section
variable {K : Type*} [Field K] [LinearOrder K] [IsStrictOrderedRing K] [FloorRing K]
variable {B n : ℕ} {κ : Type*} [Fintype κ]

/-! ## Cells that rest on a single unit -/

/-- Influence values of a cell that rests on one unit. -/
def single (i0 : Fin n) (x : K) (i : Fin n) : K := if i = i0 then x else 0

theorem drawsOf_single (r : K) (mult : Fin B → Fin n → K) (i0 : Fin n) (x : K) :
    drawsOf r mult (single i0 x) = fun b => (r * x / n) * mult b i0 := by
  funext b
  unfold drawsOf single
  simp [ite_mul]
  ring

theorem floor_of_bounds {h : K} {k : ℕ} (h1 : (k : K) ≤ h) (h2 : h < k + 1) : ⌊h⌋₊ = k := by
  rw [Nat.floor_eq_iff (le_trans (Nat.cast_nonneg _) h1)]
  exact ⟨h1, h2⟩

/-- Quartiles of four draws, two low and two high. -/
theorem iqrSigma_two_two (a b : K) (h : a ≤ b) : iqrSigma ![a, a, b, b] = (b - a) / normIqr := by
  have hl : List.ofFn ![a, a, b, b] = [a, a, b, b] := by simp [List.ofFn_succ, List.ofFn_zero]
  have hs : [a, a, b, b].insertionSort (· ≤ ·) = [a, a, b, b] := by
    simp [List.insertionSort, List.orderedInsert, h]
  have f1 : ⌊(((4 - 1 : ℕ) : K) * (3 / 4))⌋₊ = 2 := floor_of_bounds (by norm_num) (by norm_num)
  have f2 : ⌊(((4 - 1 : ℕ) : K) * (1 / 4))⌋₊ = 0 := floor_of_bounds (by norm_num) (by norm_num)
  unfold iqrSigma percentile
  rw [hl]
  simp only [List.length_cons, List.length_nil]
  simp only [show (0 + 1 + 1 + 1 + 1 : ℕ) = 4 from rfl]
  rw [hs, f1, f2]
  simp

/-- Quartiles of seven draws, six of them equal. -/
theorem iqrSigma_six_one (a b : K) : iqrSigma ![a, a, a, a, a, a, b] = 0 := by
  have hl : List.ofFn ![a, a, a, a, a, a, b] = [a, a, a, a, a, a, b] := by simp [List.ofFn_succ, List.ofFn_zero]
  have f1 : ⌊(((7 - 1 : ℕ) : K) * (3 / 4))⌋₊ = 4 := floor_of_bounds (by norm_num) (by norm_num)
  have f2 : ⌊(((7 - 1 : ℕ) : K) * (1 / 4))⌋₊ = 1 := floor_of_bounds (by norm_num) (by norm_num)
  unfold iqrSigma percentile
  rw [hl]
  simp only [List.length_cons, List.length_nil]
  simp only [show (0 + 1 + 1 + 1 + 1 + 1 + 1 + 1 : ℕ) = 7 from rfl]
  rw [f1, f2]
  rcases le_total a b with h | h
  · have hs : [a, a, a, a, a, a, b].insertionSort (· ≤ ·) = [a, a, a, a, a, a, b] := by
      simp [List.insertionSort, List.orderedInsert, h]
    rw [hs]; simp
  · rcases eq_or_lt_of_le h with h' | h'
    · subst h'; simp [List.insertionSort, List.orderedInsert]
    · have hs : [a, a, a, a, a, a, b].insertionSort (· ≤ ·) = [b, a, a, a, a, a, a] := by
        simp [List.insertionSort, List.orderedInsert, not_le.mpr h']
      rw [hs]; simp

end

/-! ## Over the reals, with the Mammen multipliers -/

section
variable {n : ℕ} {κ : Type*} [Fintype κ]

theorem k1_lt_k2 : k1 < k2 := by
  unfold k1 k2
  have : (0 : ℝ) < √5 := Real.sqrt_pos.mpr (by norm_num)
  linarith

theorem k_bounds : k2 - k1 = √5 ∧ |k1| ≤ k2 ∧ k2 ≤ 1.62 ∧ 2.2 ≤ √5 := by
  have h1 : (2.2 : ℝ) ≤ √5 := Real.le_sqrt_of_sq_le (by norm_num)
  have h2 : √5 ≤ 2.24 := by rw [Real.sqrt_le_left (by norm_num)]; norm_num
  unfold k1 k2
  refine ⟨by ring, ?_, by linarith, h1⟩
  rw [abs_le]; constructor <;> linarith

/-- C133 (Violated), a reachable case: a cell that rests on one unit gets equal quartiles as soon as that unit's two-point
multiplier took its common value in six of seven draws.  Then `att_gt` has no critical value for any cell. -/
theorem C133_single_unit_violated (tol alpha z r x : ℝ) (i0 : Fin n) (others : κ → Fin n → ℝ)
    (bits : Fin 7 → Fin n → Bool) (hbits : ∀ b, bits b i0 = decide (b ≠ 6))
    (htol : tol < (r * x / n) ^ 2 * (6 * k1 ^ 2 + k2 ^ 2)) :
    critAttGt true true z (mbootCrit tol alpha fun j : Option κ => drawsOf r (fun b i => mult (bits b i))
      (match j with | none => single i0 x | some j => others j)) = none := by
  have hcol : drawsOf r (fun b i => mult (bits b i)) (single i0 x) =
      ![r * x / n * k1, r * x / n * k1, r * x / n * k1, r * x / n * k1, r * x / n * k1, r * x / n * k1,
        r * x / n * k2] := by
    rw [drawsOf_single]
    funext b
    fin_cases b <;> simp [hbits, mult]
  refine (C133_one_cell_spoils_violated tol alpha z _ none ?_ ?_).1
  · simp only [hcol]
    simp [Fin.sum_univ_succ, Matrix.cons_val_succ, Matrix.cons_val_zero]
    nlinarith
  · have := iqrSigma_six_one (r * x / n * k1) (r * x / n * k2)
    simp only [hcol]
    unfold iqrSigma at this
    rw [div_eq_zero_iff] at this
    rcases this with h | h
    · linarith
    · exact absurd h normIqr_pos.ne'

/-! ## C134: bands that are narrower than pointwise intervals -/

/-- C134: the triple-difference aggregations never report a critical value below the pointwise one. -/
theorem C134_agg_ddd (cband : Bool) (z : ℝ) (cv : Option ℝ) :
    z ≤ critAggDdd cband z cv ∧ z ≤ critGet z cv ∧
      (∀ c, z ≤ c → critAggDdd true z (some c) = c) ∧ critAggDdd cband z none = z := by
  refine ⟨?_, ?_, ?_, ?_⟩
  · unfold critAggDdd
    cases cband <;> cases cv <;> simp
    split_ifs with h <;> simp_all
  · unfold critGet
    cases cv <;> simp
    split_ifs with h <;> simp_all
  · intro c h; simp [critAggDdd, not_lt.mpr h]
  · cases cband <;> rfl

/-- C134 (Violated): `att_gt`, `aggte` and the multi-period triple differences use any finite bootstrap value.  With a cell
that rests on one unit, four Mammen draws with two high and two low values give a simultaneous critical value below 1 at
every level, so the "uniform" band is narrower than the pointwise 95% interval. -/
theorem C134_narrow_band_violated (tol alpha r x : ℝ) (hr : 0 < r) (hx : 0 < x) (i0 : Fin n)
    (bits : Fin 4 → Fin n → Bool) (hbits : ∀ b, bits b i0 = decide (b < 2)) (h0 : 0 ≤ alpha) (h1 : alpha ≤ 1)
    (htol : tol < (r * x / n) ^ 2 * (2 * k1 ^ 2 + 2 * k2 ^ 2)) :
    ∃ c, mbootCrit tol alpha (fun _ : Unit => drawsOf r (fun b i => mult (bits b i)) (single i0 x)) = some c ∧ c < 1 ∧
      critAttGt true true 1.9599 (some c) = some c ∧ critAggte true 1.9599 (some c) = c ∧
      critDddMp true true 1.9599 (some c) = c ∧ c < critAggDdd true 1.9599 (some c) := by
  have hn : (0 : ℝ) < n := by
    have : 0 < n := Fin.pos i0
    exact_mod_cast this
  set y := r * x / n with hy
  have hy0 : 0 < y := by positivity
  have hcol : drawsOf r (fun b i => mult (bits b i)) (single i0 x) = ![y * k1, y * k1, y * k2, y * k2] := by
    rw [drawsOf_single]
    funext b
    fin_cases b <;> simp [hbits, mult, ← hy]
  obtain ⟨kd, ka, kb, kc⟩ := k_bounds
  have hsig : iqrSigma ![y * k1, y * k1, y * k2, y * k2] = y * √5 / normIqr := by
    rw [iqrSigma_two_two _ _ (by nlinarith [k1_lt_k2]), ← kd]; ring
  have hspos : 0 < y * √5 / (normIqr : ℝ) := div_pos (by positivity) normIqr_pos
  have hnd : nondegenerate tol ![y * k1, y * k1, y * k2, y * k2] = true := by
    rw [nondegenerate_iff]
    simp [Fin.sum_univ_succ, Matrix.cons_val_succ, Matrix.cons_val_zero]
    nlinarith
  rw [hcol]
  have hex := critWith_eq (bad := fun s : ℝ => decide (s = 0)) (tol := tol) (alpha := alpha)
    (bres := fun _ : Unit => ![y * k1, y * k1, y * k2, y * k2]) (by norm_num) ⟨(), hnd⟩
    (fun _ _ => by simp only [hsig]; simp [hspos.ne'])
  refine ⟨_, hex, ?_⟩
  have hb := percentile_bounds (q := 1 - alpha) (lo := 0) (hi := 0.999)
    (xs := List.ofFn fun b : Fin 4 => (cleanCols tol fun _ : Unit => ![y * k1, y * k1, y * k2, y * k2]).fold max 0
      fun _ => |![y * k1, y * k1, y * k2, y * k2] b / iqrSigma ![y * k1, y * k1, y * k2, y * k2]|)
    (by
      intro v hv
      obtain ⟨b, rfl⟩ := (List.mem_ofFn' _ _).mp hv
      refine ⟨fold_nonneg _ _, ?_⟩
      rw [fold_max_le_iff _ _ _ (by norm_num)]
      intro _ _
      have hcell : |![y * k1, y * k1, y * k2, y * k2] b| ≤ y * k2 := by
        have hk2 : |k2| ≤ k2 := (abs_of_nonneg ((abs_nonneg k1).trans ka)).le
        have g1 : |y * k1| ≤ y * k2 := by
          rw [abs_mul, abs_of_pos hy0]; exact mul_le_mul_of_nonneg_left ka hy0.le
        have g2 : |y * k2| ≤ y * k2 := by
          rw [abs_mul, abs_of_pos hy0]; exact mul_le_mul_of_nonneg_left hk2 hy0.le
        fin_cases b
        · exact g1
        · exact g1
        · exact g2
        · exact g2
      rw [abs_div, hsig, abs_of_pos hspos, div_le_iff₀ hspos]
      refine hcell.trans ?_
      have : (normIqr : ℝ) = 13489795 / 10000000 := rfl
      rw [this, mul_div_assoc', mul_comm (0.999 : ℝ)]
      rw [le_div_iff₀ (by norm_num)]
      nlinarith)
    (ofFn_ne_nil (by norm_num) _) (by linarith) (by linarith)
  refine ⟨by linarith [hb.2], rfl, rfl, rfl, ?_⟩
  have hlt := hb.2
  unfold critAggDdd
  simp only [if_true]
  rw [if_pos (by linarith)]
  linarith

/-- The hypotheses of the two theorems above are met: one unit, `r = x = 1`, tolerance `10⁻⁷`. -/
example : (∃ bits : Fin 4 → Fin 1 → Bool, ∀ b, bits b 0 = decide (b < 2)) ∧
    ((1e-7 : ℝ) < ((1 : ℝ) * 1 / (1 : ℕ)) ^ 2 * (2 * k1 ^ 2 + 2 * k2 ^ 2)) ∧
    ((1e-7 : ℝ) < ((1 : ℝ) * 1 / (1 : ℕ)) ^ 2 * (6 * k1 ^ 2 + k2 ^ 2)) := by
  refine ⟨⟨fun b _ => decide (b < 2), fun _ => rfl⟩, ?_, ?_⟩
  all_goals
    obtain ⟨kd, ka, kb, kc⟩ := k_bounds
    have h1 : 1 ≤ k2 := by unfold k2; linarith
    norm_num
    nlinarith [sq_nonneg k1]

end

/-! ## C135: overall standard errors from the same draws -/

section
variable {K : Type*} [Field K] [LinearOrder K] [IsStrictOrderedRing K] [FloorRing K]
variable {B n : ℕ} {κ : Type*} [Fintype κ]

/-- Combining the draws of the columns gives the draws of the combined influence function. -/
theorem draws_linear (r : K) (mult : Fin B → Fin n → K) (psi : κ → Fin n → K) (w : κ → K) (mask : Finset κ) :
    (fun b => ∑ j ∈ mask, drawsOf r mult (psi j) b * w j) =
      drawsOf r mult (fun i => ∑ j ∈ mask, psi j i * w j) := by
  funext b
  unfold drawsOf
  have : ∀ i, (∑ j ∈ mask, psi j i * w j) * mult b i = ∑ j ∈ mask, psi j i * mult b i * w j := by
    intro i; rw [Finset.sum_mul]; exact Finset.sum_congr rfl fun j _ => by ring
  simp only [this]
  rw [Finset.sum_comm, Finset.sum_div, Finset.mul_sum]
  refine Finset.sum_congr rfl fun j _ => ?_
  rw [← Finset.sum_mul]; ring

/-- C135: the overall standard error computed from the stored draws of the columns is the one the bootstrap would report for
the overall influence function under the same multipliers. -/
theorem C135_overall (tol r : K) (mult : Fin B → Fin n → K) (psi : κ → Fin n → K) (w : κ → K) (mask : Finset κ)
    (hd : tol < ∑ b, drawsOf r mult (fun i => ∑ j ∈ mask, psi j i * w j) b ^ 2) :
    overallSe tol r mask w (fun j => drawsOf r mult (psi j)) =
      reportSe tol (mbootDddSe tol r (drawsOf r mult (fun i => ∑ j ∈ mask, psi j i * w j))) := by
  unfold overallSe mbootDddSe
  simp only [draws_linear]
  rw [if_pos (nondegenerate_iff.mpr hd)]
  unfold reportSe
  split_ifs <;> simp_all

/-- C135: equal weights over one column give back that column's standard error. -/
theorem C135_one_column (tol r : K) (mult : Fin B → Fin n → K) (psi : κ → Fin n → K) (j : κ) (w : κ → K) (hw : w j = 1)
    (hd : tol < ∑ b, drawsOf r mult (psi j) b ^ 2) :
    overallSe tol r {j} w (fun j => drawsOf r mult (psi j)) =
      reportSe tol (mbootDddSe tol r (drawsOf r mult (psi j))) := by
  have h : (fun i => ∑ k ∈ ({j} : Finset κ), psi k i * w k) = psi j := by funext i; simp [hw]
  have := C135_overall tol r mult psi w {j} (by rw [h]; exact hd)
  rw [this, h]

/-- C135 (Violated): in a cell with several comparison cohorts the analytical GMM value replaces the (possibly clustered)
bootstrap value, whatever the latter is. -/
theorem C135_gmm_cells_violated (tol s : K) (hs : tol < s) (bootSe : Option K) :
    dddMpSe tol (some s) bootSe = some s ∧ (∀ b, tol < b → dddMpSe tol none (some b) = some b) := by
  constructor
  · simp [dddMpSe, reportSe, not_le.mpr hs]
  · intro b hb; simp [dddMpSe, reportSe, not_le.mpr hb]

end

/-! ## C136: Wald pre-test -/

section
variable {K : Type*} [Field K] [LinearOrder K] [IsStrictOrderedRing K] {n m : ℕ}

/-- The statistic as a sum of squares over units. -/
theorem wald_sum_sq (hn : 0 < n) (psi : Fin n → Fin m → K) (a x : Fin m → K) (h : WaldSolve psi a x) :
    waldStat n a x = ∑ u, (∑ i, psi u i * x i) ^ 2 := by
  have hn' : (n : K) ≠ 0 := by exact_mod_cast hn.ne'
  unfold waldStat
  have : ∀ i, a i * x i = (∑ u, ∑ j, psi u i * psi u j * x j * x i) / n := by
    intro i
    rw [← h i, Finset.sum_mul, Finset.sum_comm, Finset.sum_div]
    refine Finset.sum_congr rfl fun j _ => ?_
    unfold varMat
    rw [div_mul_eq_mul_div, div_mul_eq_mul_div, Finset.sum_mul, Finset.sum_mul]
  simp only [this]
  rw [← Finset.sum_div, mul_div_cancel₀ _ hn', Finset.sum_comm]
  refine Finset.sum_congr rfl fun u _ => ?_
  rw [sq, Finset.sum_mul_sum]
  refine Finset.sum_congr rfl fun i _ => Finset.sum_congr rfl fun j _ => ?_
  ring

/-- C136: the statistic is never negative. -/
theorem C136_nonneg (hn : 0 < n) (psi : Fin n → Fin m → K) (a x : Fin m → K) (h : WaldSolve psi a x) :
    0 ≤ waldStat n a x := by
  rw [wald_sum_sq hn psi a x h]
  exact Finset.sum_nonneg fun _ _ => sq_nonneg _

/-- C136: it is zero exactly when every pre-treatment estimate is zero. -/
theorem C136_zero_iff (hn : 0 < n) (psi : Fin n → Fin m → K) (a x : Fin m → K) (h : WaldSolve psi a x) :
    waldStat n a x = 0 ↔ ∀ i, a i = 0 := by
  constructor
  · intro h0
    rw [wald_sum_sq hn psi a x h, Finset.sum_eq_zero_iff_of_nonneg (fun _ _ => sq_nonneg _)] at h0
    intro i
    rw [← h i]
    unfold varMat
    have : ∀ j, (∑ u, psi u i * psi u j) / (n : K) * x j = (∑ u, psi u i * (psi u j * x j)) / n := by
      intro j; rw [div_mul_eq_mul_div, Finset.sum_mul]; congr 1
      exact Finset.sum_congr rfl fun u _ => by ring
    simp only [this]
    rw [← Finset.sum_div, Finset.sum_comm]
    have : ∑ u, ∑ j, psi u i * (psi u j * x j) = 0 := by
      refine Finset.sum_eq_zero fun u _ => ?_
      rw [← Finset.mul_sum, pow_eq_zero_iff (two_ne_zero) |>.mp (h0 u (Finset.mem_univ _)), mul_zero]
    rw [this, zero_div]
  · intro h0; simp [waldStat, h0]

/-- C136: with one pre-treatment cell it is the square of the t-ratio: the estimate over its analytical standard error,
whose square is `mean(psi²) / n`. -/
theorem C136_one_cell (hn : 0 < n) (psi : Fin n → Fin 1 → K) (a x : Fin 1 → K) (h : WaldSolve psi a x)
    (hv : (∑ u, psi u 0 ^ 2) ≠ 0) :
    waldStat n a x = a 0 ^ 2 / (((∑ u, psi u 0 ^ 2) / n) / n) := by
  have hn' : (n : K) ≠ 0 := by exact_mod_cast hn.ne'
  have h0 := h 0
  have e : ∑ u, psi u 0 * psi u 0 = ∑ u, psi u 0 ^ 2 := Finset.sum_congr rfl fun u _ => by ring
  simp only [Fin.sum_univ_one, varMat, e] at h0
  unfold waldStat
  rw [Fin.sum_univ_one, ← h0]
  field_simp

/-- C136: it does not depend on which solution the linear solver returns. -/
theorem C136_solver (psi : Fin n → Fin m → K) (a x x' : Fin m → K) (h : WaldSolve psi a x) (h' : WaldSolve psi a x') :
    waldStat n a x = waldStat n a x' := by
  unfold waldStat
  congr 1
  have e1 : ∑ i, a i * x i = ∑ i, ∑ j, varMat psi i j * x' j * x i := by
    refine Finset.sum_congr rfl fun i _ => ?_
    rw [← h' i, Finset.sum_mul]
  have e2 : ∑ i, a i * x' i = ∑ i, ∑ j, varMat psi i j * x j * x' i := by
    refine Finset.sum_congr rfl fun i _ => ?_
    rw [← h i, Finset.sum_mul]
  rw [e1, e2, Finset.sum_comm]
  refine Finset.sum_congr rfl fun i _ => Finset.sum_congr rfl fun j _ => ?_
  have : varMat psi j i = varMat psi i j := by
    unfold varMat; congr 1; exact Finset.sum_congr rfl fun u _ => mul_comm _ _
  rw [this]; ring

/-- C136: changing the units (or signs) of the estimates, cell by cell, leaves it unchanged. -/
theorem C136_units (psi : Fin n → Fin m → K) (a x : Fin m → K) (c : Fin m → K) (hc : ∀ i, c i ≠ 0)
    (h : WaldSolve psi a x) :
    WaldSolve (fun u i => c i * psi u i) (fun i => c i * a i) (fun i => x i / c i) ∧
      waldStat n (fun i => c i * a i) (fun i => x i / c i) = waldStat n a x := by
  constructor
  · intro i
    dsimp only
    rw [← h i, Finset.mul_sum]
    refine Finset.sum_congr rfl fun j _ => ?_
    unfold varMat
    have : ∑ u, c i * psi u i * (c j * psi u j) = c i * c j * ∑ u, psi u i * psi u j := by
      rw [Finset.mul_sum]; exact Finset.sum_congr rfl fun u _ => by ring
    rw [this]
    have := hc j
    field_simp
  · unfold waldStat
    congr 1
    refine Finset.sum_congr rfl fun i _ => ?_
    have := hc i
    field_simp

/-- C136: which cells enter: exactly those before the treatment date with a standard error; in particular never a
reference-period cell, whose influence is zero and whose standard error is missing. -/
theorem C136_cells (cells : List (ℤ × ℤ × Bool)) (k : ℕ) :
    k ∈ preCells cells ↔ ∃ g t, cells[k]? = some (g, t, false) ∧ t < g := by
  unfold preCells
  simp only [List.mem_filter, List.mem_range]
  constructor
  · rintro ⟨hk, h⟩
    cases hc : cells[k]? with
    | none => simp [hc] at h
    | some v =>
      obtain ⟨g, t, s⟩ := v
      simp only [hc, Bool.and_eq_true, decide_eq_true_eq, Bool.not_eq_true'] at h
      exact ⟨g, t, by rw [h.2], h.1⟩
  · rintro ⟨g, t, hc, hlt⟩
    refine ⟨(List.getElem?_eq_some_iff.mp hc).1, ?_⟩
    simp [hc, hlt]

/-- C136 (Violated): with `anticipation = d ≥ 1`, periods `g - d ≤ t < g` may show effects, yet such cells enter the test of
parallel trends whenever they have a standard error. -/
theorem C136_anticipation_violated (d : ℤ) (hd : 1 ≤ d) (g : ℤ) :
    ∃ t, g - d ≤ t ∧ t < g ∧ ∀ cells : List (ℤ × ℤ × Bool), ∀ k, cells[k]? = some (g, t, false) → k ∈ preCells cells :=
  ⟨g - 1, by omega, by omega, fun cells k h => (C136_cells cells k).mpr ⟨g, g - 1, h, by omega⟩⟩

/-- Two units, one cell: influence `(1, -1)`, estimate `2`; the statistic is `2 · 2 · 2 = 8`. -/
example : WaldSolve (n := 2) (m := 1) (fun u _ => ![1, -1] u) (fun _ => (2 : ℚ)) (fun _ => 2) ∧
    waldStat 2 (fun _ : Fin 1 => (2 : ℚ)) (fun _ => 2) = 8 := by
  constructor
  · intro i; simp [varMat, Fin.sum_univ_two]
  · simp [waldStat]; norm_num

end

/-! ## Non-vacuity -/

/-- Five draws of two cells. -/
def exDraws : Fin 2 → Fin 5 → ℚ := ![![-2, -1, 0, 1, 2], ![3, -3, 1, 0, -1]]

example : mbootSe (1 / 1000000 : ℚ) 2 (exDraws 0) = some (10000000 / 13489795) := by decide +kernel

/-- The hypotheses of C132 and C133 are met: the critical value of the two cells together, of the first alone, and the same
after measuring the first cell in units ten times smaller and reversing the second. -/
example : mbootCrit (1 / 1000000 : ℚ) (1 / 5) exDraws = some (8093877 / 4000000) ∧
    mbootCrit (1 / 1000000 : ℚ) (1 / 5) (fun _ : Unit => exDraws 0) = some (13489795 / 10000000) ∧
    mbootCrit (1 / 1000000 : ℚ) (1 / 5) (fun j b => ![10, -1] j * exDraws j b) = some (8093877 / 4000000) ∧
    mbootDddCrit (1 / 1000000 : ℚ) (1 / 5) exDraws = some (8093877 / 4000000) := by decide +kernel

/-- A third column without variation changes nothing; a column with variation and equal quartiles removes the value. -/
example : mbootCrit (1 / 1000000 : ℚ) (1 / 5) ![exDraws 0, exDraws 1, fun _ => 0] = some (8093877 / 4000000) ∧
    mbootCrit (1 / 1000000 : ℚ) (1 / 5) ![exDraws 0, exDraws 1, ![1, 1, 1, 1, 7]] = none := by decide +kernel

/-- C135: the overall standard error of two columns with weights 1/3 and 2/3. -/
example : overallSe (1 / 1000000 : ℚ) 2 Finset.univ ![1 / 3, 2 / 3] exDraws = some (2000000 / 8093877) := by
  decide +kernel

end Verif.Boot
