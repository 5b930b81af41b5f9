import Verif.Boot.Model
import Mathlib.Tactic.Ring
import Mathlib.Tactic.FieldSimp
import Mathlib.Tactic.NormNum
import Mathlib.Tactic.Linarith
import Mathlib.Tactic.Positivity
import Mathlib.Algebra.Field.Rat
import Mathlib.Algebra.Order.Ring.Rat
import Mathlib.Data.Fin.VecNotation
import Mathlib.Algebra.BigOperators.Fin

set_option linter.unusedSectionVars false

/-! # C39, C40, C42, C77: multipliers, draws, standard errors -/

namespace Verif.Boot

/-! ## C39 -/

theorem sqrt5_sq : √5 * √5 = (5 : ℝ) := Real.mul_self_sqrt (by norm_num)
theorem sqrt5_pos : 0 < √(5 : ℝ) := Real.sqrt_pos.2 (by norm_num)

theorem pKappa_eq : pKappa = (5 + √5) / 10 := by
  unfold pKappa
  have h := sqrt5_sq
  have hp := sqrt5_pos
  rw [div_eq_iff hp.ne']
  ring_nf
  rw [show √5 ^ 2 = (5 : ℝ) by rw [sq]; exact h]
  ring

/-- **C39.** The probability is a probability and the multiplier has mean 0, variance 1 and third moment 1. -/
theorem C39_mammen_moments :
    0 < pKappa ∧ pKappa < 1 ∧
    pKappa * k1 + (1 - pKappa) * k2 = 0 ∧
    pKappa * k1 ^ 2 + (1 - pKappa) * k2 ^ 2 = 1 ∧
    pKappa * k1 ^ 3 + (1 - pKappa) * k2 ^ 3 = 1 := by
  have h := sqrt5_sq
  have hp := sqrt5_pos
  have hlt : √(5 : ℝ) < 3 := by nlinarith
  rw [pKappa_eq]
  refine ⟨by positivity, by linarith, ?_, ?_, ?_⟩ <;> unfold k1 k2
  · nlinarith
  · have h2 : √(5 : ℝ) ^ 2 = 5 := by rw [sq]; exact h
    have h3 : √(5 : ℝ) ^ 3 = 5 * √5 := by rw [pow_succ, h2]
    ring_nf
    rw [h2]
    norm_num
  · have h2 : √(5 : ℝ) ^ 2 = 5 := by rw [sq]; exact h
    have h3 : √(5 : ℝ) ^ 3 = 5 * √5 := by rw [pow_succ, h2]
    have h4 : √(5 : ℝ) ^ 4 = 25 := by
      calc √(5 : ℝ) ^ 4 = (√5 ^ 2) ^ 2 := by ring
        _ = 25 := by rw [h2]; norm_num
    ring_nf
    rw [h2, h4]
    norm_num

/-! ## C40 -/

section
variable {K : Type*} [Field K] {κ : Type*}

theorem drawLoop_eq (m1 m2 : K) (j : κ) (inf : List (κ → K)) : ∀ (total : K) (bits : List Bool),
    drawLoop m1 m2 j total inf bits =
      total + (List.zipWith (fun r v => r j * v) inf (bits.map fun b => if b then m1 else m2)).sum := by
  induction inf with
  | nil => intro total bits; simp [drawLoop]
  | cons r inf ih =>
    intro total bits
    cases bits with
    | nil => simp [drawLoop]
    | cons b bits =>
      simp only [drawLoop, ih, List.map_cons, List.zipWith_cons_cons, List.sum_cons]
      ring

/-- **C40, the three implementations agree.** -/
theorem C40_implementations_agree (m1 m2 : K) (inf : List (κ → K)) (bits : List Bool) :
    drawNb m1 m2 inf bits = drawPy m1 m2 inf bits ∧ drawGpu m1 m2 inf bits = drawPy m1 m2 inf bits := by
  constructor
  · funext j
    unfold drawNb drawPy
    rw [drawLoop_eq, zero_add]
  · funext j
    unfold drawGpu drawPy
    congr 1
    rw [List.zipWith_comm]
    congr 2
    funext r v
    exact mul_comm _ _

/-- Column-wise linear combination of two influence matrices with the same rows. -/
def combo (a b : K) (x y : List (κ → K)) : List (κ → K) := List.zipWith (fun r s j => a * r j + b * s j) x y

/-- **C40, linearity.** For fixed multipliers a draw is linear in the influence matrix. -/
theorem C40_linear (m1 m2 a b : K) (x y : List (κ → K)) (h : x.length = y.length) (bits : List Bool) (j : κ) :
    drawNb m1 m2 (combo a b x y) bits j = a * drawNb m1 m2 x bits j + b * drawNb m1 m2 y bits j := by
  rw [(C40_implementations_agree m1 m2 _ bits).1, (C40_implementations_agree m1 m2 _ bits).1,
    (C40_implementations_agree m1 m2 _ bits).1]
  unfold drawPy combo
  have hl : (List.zipWith (fun r s (j : κ) => a * r j + b * s j) x y).length = x.length := by simp [h]
  rw [hl, ← h, mul_div_assoc', mul_div_assoc', ← add_div]
  congr 1
  clear hl
  induction x generalizing y bits with
  | nil =>
    obtain rfl : y = [] := List.length_eq_zero_iff.1 (by simpa using h.symm)
    simp
  | cons r x ih =>
    cases y with
    | nil => simp at h
    | cons s y =>
      cases bits with
      | nil => simp
      | cons c bits =>
        simp only [List.zipWith_cons_cons, List.map_cons, List.sum_cons]
        rw [ih y (by simpa using h) bits]
        ring

/-- **C40, zero columns.** A column of zeros gives zero draws. -/
theorem C40_zero_column (m1 m2 : K) (inf : List (κ → K)) (bits : List Bool) (j : κ) (h : ∀ r ∈ inf, r j = 0) :
    drawNb m1 m2 inf bits j = 0 := by
  rw [(C40_implementations_agree m1 m2 _ bits).1]
  unfold drawPy
  have : (List.zipWith (fun r v => r j * v) inf (bits.map fun b => if b then m1 else m2)).sum = 0 := by
    induction inf generalizing bits with
    | nil => simp
    | cons r inf ih =>
      cases bits with
      | nil => simp
      | cons b bits =>
        rw [List.map_cons, List.zipWith_cons_cons, List.sum_cons, ih bits fun s hs => h s (List.mem_cons_of_mem _ hs),
          h r (List.mem_cons_self ..)]
        simp
  rw [this, zero_div]

theorem takeMat_add {S : Type*} (g : Rng S) (n a b : ℕ) (s : S) :
    (takeMat g n (a + b) s).1 = (takeMat g n a s).1 ++ (takeMat g n b (takeMat g n a s).2).1 := by
  induction a generalizing s with
  | zero => simp [takeMat]
  | succ a ih =>
    rw [Nat.succ_add]
    simp only [takeMat]
    rw [ih]
    rfl

theorem batchLoop_eq {S : Type*} (g : Rng S) (n batch : ℕ) (hb : 1 ≤ batch) (f : List Bool → κ → K) :
    ∀ (fuel remaining : ℕ) (s : S), remaining ≤ fuel →
      batchLoop g n batch f fuel remaining s = (takeMat g n remaining s).1.map f := by
  intro fuel
  induction fuel with
  | zero =>
    intro remaining s h
    obtain rfl : remaining = 0 := by omega
    rfl
  | succ fuel ih =>
    intro remaining s h
    unfold batchLoop
    split_ifs with h0
    · subst h0; rfl
    · simp only
      rw [ih _ _ (by omega), ← List.map_append, ← takeMat_add]
      congr 3
      omega

/-- **C40, batching.** Whatever the batch size chosen from the number of units, the draws are those of one pass over
the same stream of variates: one row of `n` variates per draw, in order. -/
theorem C40_batching {S : Type*} (g : Rng S) (m1 m2 : K) (inf : List (κ → K)) (biters : ℕ) (s : S) :
    multiplierBootstrap g m1 m2 inf biters s = (takeMat g inf.length biters s).1.map (drawPy m1 m2 inf) ∧
    multiplierBootstrapGpu g m1 m2 inf biters s = (takeMat g inf.length biters s).1.map (drawPy m1 m2 inf) := by
  have e1 : drawNb m1 m2 inf = drawPy m1 m2 inf := funext fun b => (C40_implementations_agree m1 m2 inf b).1
  have e2 : drawGpu m1 m2 inf = drawPy m1 m2 inf := funext fun b => (C40_implementations_agree m1 m2 inf b).2
  constructor
  · unfold multiplierBootstrap
    simp only
    split_ifs with h
    · rw [e1]
    · rw [batchLoop_eq g _ _ _ _ _ _ _ le_rfl, e1]
      unfold batchSize at h ⊢
      have : 1 ≤ max 1 (2 ^ 30 / (1 * inf.length)) := le_max_left _ _
      omega
  · unfold multiplierBootstrapGpu
    rcases Nat.eq_zero_or_pos biters with rfl | hpos
    · simp [batchLoop, takeMat]
    · rw [batchLoop_eq g _ _ _ _ _ _ _ le_rfl, e2]
      unfold batchSize
      have : 1 ≤ max 1 (2 ^ 30 / (16 * inf.length)) := le_max_left _ _
      omega

/-- One draw per requested iteration. -/
theorem C40_count {S : Type*} (g : Rng S) (m1 m2 : K) (inf : List (κ → K)) (biters : ℕ) (s : S) :
    (multiplierBootstrap g m1 m2 inf biters s).length = biters := by
  rw [(C40_batching g m1 m2 inf biters s).1, List.length_map]
  induction biters generalizing s with
  | zero => rfl
  | succ b ih => simp only [takeMat, List.length_cons]; rw [ih]

/-- An alternating generator; a loop with batches of two really splits the work. -/
example : batchLoop (κ := Unit) (K := ℚ) (S := ℕ) ⟨fun s => (s % 2 == 0, s + 1)⟩ 3 2
    (drawPy 1 2 [fun _ => 3, fun _ => 6, fun _ => 9]) 5 5 0 =
    [drawPy 1 2 [fun _ => 3, fun _ => 6, fun _ => 9] [true, false, true],
     drawPy 1 2 [fun _ => 3, fun _ => 6, fun _ => 9] [false, true, false],
     drawPy 1 2 [fun _ => 3, fun _ => 6, fun _ => 9] [true, false, true],
     drawPy 1 2 [fun _ => 3, fun _ => 6, fun _ => 9] [false, true, false],
     drawPy 1 2 [fun _ => 3, fun _ => 6, fun _ => 9] [true, false, true]] := rfl
example : drawPy (κ := Unit) (K := ℚ) 1 2 [fun _ => 3, fun _ => 6, fun _ => 9] [true, false, true] () = 8 := by
  decide +kernel

end

/-! ## C42 -/

/-- **C42, formula.** Both analytical standard errors are `sqrt(sum of squares) / n`. -/
theorem C42_formula {n : ℕ} (psi : Fin n → ℝ) :
    seAttGt psi = √(∑ i, psi i ^ 2) / n ∧ seAgg psi = √(∑ i, psi i ^ 2) / n := by
  have e : ∀ x : ℝ, √(x / n / n) = √x / n := by
    intro x
    rw [div_div, ← sq, Real.sqrt_div' _ (by positivity), Real.sqrt_sq (by positivity)]
  constructor
  · unfold seAttGt
    rw [e]
    simp only [sq]
  · unfold seAgg
    rw [e]

/-- **C42, scale.** Standard errors are non-negative, scale by `|c|`, and are zero only for a zero influence
function. -/
theorem C42_scale {n : ℕ} (psi : Fin n → ℝ) (c : ℝ) :
    0 ≤ seAttGt psi ∧ seAttGt (fun i => c * psi i) = |c| * seAttGt psi ∧
    (seAttGt psi = 0 ↔ ∀ i, psi i = 0) := by
  rw [(C42_formula psi).1, (C42_formula fun i => c * psi i).1]
  refine ⟨by positivity, ?_, ?_⟩
  · have : ∑ i, (c * psi i) ^ 2 = c ^ 2 * ∑ i, psi i ^ 2 := by
      rw [Finset.mul_sum]; exact Finset.sum_congr rfl fun i _ => by ring
    rw [this, Real.sqrt_mul (sq_nonneg c), Real.sqrt_sq_eq_abs]
    ring
  · constructor
    · intro h i
      have hn : (n : ℝ) ≠ 0 := by
        have := i.2
        exact_mod_cast (by omega : n ≠ 0)
      rw [div_eq_zero_iff, or_iff_left hn, Real.sqrt_eq_zero (Finset.sum_nonneg fun i _ => sq_nonneg _),
        Finset.sum_eq_zero_iff_of_nonneg (fun i _ => sq_nonneg _)] at h
      exact pow_eq_zero_iff (two_ne_zero) |>.1 (h i (Finset.mem_univ i))
    · intro h
      simp [h]

/-- **C42, reporting.** A reported standard error exceeds the tolerance, in particular it is positive. -/
theorem C42_reported_positive (tol se r : ℝ) (htol : 0 ≤ tol) (h : seReport tol se = some r) : r = se ∧ 0 < r := by
  unfold seReport at h
  split_ifs at h with hc
  · simp only [Option.some.injEq] at h
    exact ⟨h.symm, by linarith [not_le.1 hc]⟩

/-- **C42, bands.** Confidence bands are centred at the estimate, contain it for a non-negative critical value, and are
nested in the critical value. -/
theorem C42_bands (att crit crit' se : ℝ) (hse : 0 ≤ se) (h0 : 0 ≤ crit) (h : crit ≤ crit') :
    (band att crit se).1 + (band att crit se).2 = 2 * att ∧
    (band att crit se).1 ≤ att ∧ att ≤ (band att crit se).2 ∧
    (band att crit' se).1 ≤ (band att crit se).1 ∧ (band att crit se).2 ≤ (band att crit' se).2 := by
  unfold band
  have := mul_le_mul_of_nonneg_right h hse
  have := mul_nonneg h0 hse
  refine ⟨by ring, by linarith, by linarith, by linarith, by linarith⟩

example : seAttGt (n := 2) ![3, 4] = 5 / 2 := by
  rw [(C42_formula _).1]
  simp only [Fin.sum_univ_two, Matrix.cons_val_zero, Matrix.cons_val_one, Nat.cast_ofNat]
  rw [show (3 : ℝ) ^ 2 + 4 ^ 2 = 5 ^ 2 by norm_num, Real.sqrt_sq (by norm_num)]

/-! ## C77: conditional variance of the draws -/

section
variable {ι : Type*} [Fintype ι] [DecidableEq ι]

/-- Expectation over independent multiplier bits. -/
noncomputable def expect (f : (ι → Bool) → ℝ) : ℝ :=
  ∑ b : ι → Bool, (∏ i, if b i then pKappa else 1 - pKappa) * f b

/-- A multiplier draw of the mean of `psi`. -/
noncomputable def drawMean (psi : ι → ℝ) (b : ι → Bool) : ℝ := (∑ i, psi i * mult (b i)) / Fintype.card ι

theorem expect_prod (f : ι → Bool → ℝ) :
    expect (fun b => ∏ i, f i (b i)) = ∏ i, (pKappa * f i true + (1 - pKappa) * f i false) := by
  unfold expect
  simp only [← Finset.prod_mul_distrib]
  have := Finset.prod_univ_sum (fun _ : ι => (Finset.univ : Finset Bool))
    (fun i c => (if c then pKappa else 1 - pKappa) * f i c)
  rw [Fintype.piFinset_univ] at this
  rw [← this]
  refine Finset.prod_congr rfl fun i _ => ?_
  simp

theorem expect_sum {α : Type*} (s : Finset α) (f : α → (ι → Bool) → ℝ) :
    expect (fun b => ∑ a ∈ s, f a b) = ∑ a ∈ s, expect (f a) := by
  unfold expect
  simp only [Finset.mul_sum]
  rw [Finset.sum_comm]

theorem expect_const_mul (c : ℝ) (f : (ι → Bool) → ℝ) : expect (fun b => c * f b) = c * expect f := by
  unfold expect
  rw [Finset.mul_sum]
  exact Finset.sum_congr rfl fun b _ => by ring

theorem expect_mult (i : ι) : expect (fun b => mult (b i)) = 0 := by
  have h := expect_prod (fun l c => if l = i then mult c else 1)
  have e : (fun b : ι → Bool => ∏ l, if l = i then mult (b l) else 1) = fun b => mult (b i) := by
    funext b
    rw [Finset.prod_ite_eq' Finset.univ i]; simp
  rw [e] at h
  rw [h]
  apply Finset.prod_eq_zero (Finset.mem_univ i)
  simp only [if_true, mult]
  exact C39_mammen_moments.2.2.1

theorem expect_mult_mult (i j : ι) : expect (fun b => mult (b i) * mult (b j)) = if i = j then 1 else 0 := by
  by_cases hij : i = j
  · subst hij
    have h := expect_prod (fun l c => if l = i then mult c * mult c else 1)
    have e : (fun b : ι → Bool => ∏ l, if l = i then mult (b l) * mult (b l) else 1) =
        fun b => mult (b i) * mult (b i) := by
      funext b
      rw [Finset.prod_ite_eq' Finset.univ i]; simp
    rw [e] at h
    rw [h, if_pos rfl]
    have : ∀ l, (pKappa * (if l = i then mult true * mult true else 1) +
        (1 - pKappa) * (if l = i then mult false * mult false else 1)) = 1 := by
      intro l
      split_ifs
      · have := C39_mammen_moments.2.2.2.1
        simp only [mult, if_true, Bool.false_eq_true, if_false]
        nlinarith
      · ring
    rw [Finset.prod_congr rfl fun l _ => this l]; simp
  · have h := expect_prod (fun l c => (if l = i then mult c else 1) * (if l = j then mult c else 1))
    have e : (fun b : ι → Bool => ∏ l, (if l = i then mult (b l) else 1) * (if l = j then mult (b l) else 1)) =
        fun b => mult (b i) * mult (b j) := by
      funext b
      rw [Finset.prod_mul_distrib, Finset.prod_ite_eq' Finset.univ i, Finset.prod_ite_eq' Finset.univ j]; simp
    rw [e] at h
    rw [h, if_neg hij]
    apply Finset.prod_eq_zero (Finset.mem_univ i)
    simp only [if_true, if_neg hij, mul_one, mult]
    exact C39_mammen_moments.2.2.1

/-- **C77, unclustered.** Over the multipliers, a draw has mean zero and variance equal to the squared analytical
standard error. -/
theorem C77_draw_variance (psi : ι → ℝ) :
    expect (drawMean psi) = 0 ∧
    expect (fun b => drawMean psi b ^ 2) = (∑ i, psi i ^ 2) / (Fintype.card ι : ℝ) ^ 2 := by
  constructor
  · have : drawMean psi = fun b => (1 / (Fintype.card ι : ℝ)) * ∑ i, psi i * mult (b i) := by
      funext b; unfold drawMean; ring
    rw [this, expect_const_mul, expect_sum]
    simp [expect_const_mul, expect_mult]
  · have : (fun b => drawMean psi b ^ 2) = fun b => (1 / (Fintype.card ι : ℝ) ^ 2) *
        ∑ i, ∑ j, (psi i * psi j) * (mult (b i) * mult (b j)) := by
      funext b
      unfold drawMean
      rw [div_pow, sq (∑ i, psi i * mult (b i)), Finset.sum_mul_sum]
      rw [one_div, inv_mul_eq_div]
      congr 1
      exact Finset.sum_congr rfl fun i _ => Finset.sum_congr rfl fun j _ => by ring
    rw [this, expect_const_mul, expect_sum]
    simp only [expect_sum, expect_const_mul, expect_mult_mult, mul_ite, mul_one, mul_zero, Finset.sum_ite_eq,
      Finset.mem_univ, if_true]
    rw [one_div, inv_mul_eq_div]
    congr 1
    exact Finset.sum_congr rfl fun i _ => by ring

/-- For units `0, ..., n-1` that variance is the square of the reported analytical standard error. -/
theorem C77_matches_analytical {n : ℕ} (psi : Fin n → ℝ) :
    expect (fun b => drawMean psi b ^ 2) = seAttGt psi ^ 2 := by
  rw [(C77_draw_variance psi).2, (C42_formula psi).1, div_pow, Real.sq_sqrt (Finset.sum_nonneg fun i _ => sq_nonneg _),
    Fintype.card_fin]

/-- Cluster `c`'s mean influence value, as used by the clustered bootstrap (`mboot.py:85-92`). -/
noncomputable def clMean {γ : Type*} [Fintype γ] [DecidableEq γ] (cl : ι → γ) (psi : ι → ℝ) (c : γ) : ℝ :=
  (∑ i with cl i = c, psi i) / ((Finset.univ.filter fun i => cl i = c).card : ℝ)

/-- **C77, clustered, equal cluster sizes.** If all clusters have the same size, the variance of a clustered draw is the
cluster-robust variance of the mean. -/
theorem C77_cluster_equal_sizes {γ : Type*} [Fintype γ] [DecidableEq γ] (cl : ι → γ) (psi : ι → ℝ) (m : ℕ)
    (hm : ∀ c, (Finset.univ.filter fun i => cl i = c).card = m) :
    expect (fun b => drawMean (clMean cl psi) b ^ 2) =
      (∑ c, (∑ i with cl i = c, psi i) ^ 2) / (Fintype.card ι : ℝ) ^ 2 := by
  rw [(C77_draw_variance (clMean cl psi)).2]
  have hcard : (Fintype.card ι : ℝ) = m * Fintype.card γ := by
    have h1 : Fintype.card ι = ∑ c : γ, (Finset.univ.filter fun i => cl i = c).card := by
      rw [← Finset.card_univ]
      exact Finset.card_eq_sum_card_fiberwise fun i _ => Finset.mem_univ _
    rw [h1, Finset.sum_congr rfl fun c _ => hm c]
    simp [mul_comm]
  unfold clMean
  simp only [hm, div_pow]
  rw [← Finset.sum_div, div_div, hcard, mul_pow]

/-- **C77 fails for unequal cluster sizes.** Two clusters, one of size 3 and one of size 1: the bootstrap's variance is
not the cluster-robust variance of the mean influence value. -/
theorem C77_cluster_unequal_violated :
    expect (fun b => drawMean (clMean (ι := Fin 4) (γ := Bool) (fun i => decide (i = 3)) ![1, 1, 1, 1]) b ^ 2) = 1 / 2 ∧
    (∑ c : Bool, (∑ i : Fin 4 with decide (i = 3) = c, (![1, 1, 1, 1] : Fin 4 → ℝ) i) ^ 2) / (4 : ℝ) ^ 2 = 5 / 8 := by
  constructor
  · rw [(C77_draw_variance _).2]
    unfold clMean
    simp only [Fintype.card_bool, Fintype.sum_bool, Finset.sum_filter, Finset.card_filter, Fin.sum_univ_four]
    simp
    norm_num
  · simp only [Fintype.sum_bool, Finset.sum_filter, Fin.sum_univ_four]
    simp
    norm_num

/-- Two clusters of size two. -/
example : ∀ c : Bool, (Finset.univ.filter fun i : Fin 4 => decide ((i : ℕ) < 2) = c).card = 2 := by decide

end

end Verif.Boot
