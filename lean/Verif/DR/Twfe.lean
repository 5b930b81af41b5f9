import Verif.DR.TwfeModel
import Verif.DR.Refit
import Mathlib.Tactic.LinearCombination
import Mathlib.Tactic.Linarith
import Mathlib.Algebra.BigOperators.Fin

/-!
# Two-way fixed-effects regressions for two periods: properties
-/

set_option linter.unusedSectionVars false
set_option linter.unusedSimpArgs false

namespace Verif.DR

variable {ι κ K : Type*} [Fintype ι] [Fintype κ] [Field K]

lemma sum_rows (f : ι × Bool → K) : ∑ r, f r = ∑ i, (f (i, true) + f (i, false)) := by
  rw [Fintype.sum_prod_type]
  exact Finset.sum_congr rfl fun i _ => by rw [Fintype.sum_bool]

lemma twfe_fit (d : ι → Bool) (x : ι → κ → K) (β : Fin 4 ⊕ κ → K) (i : ι) (t : Bool) :
    ∑ l, twfeX d x (i, t) l * β l =
      β (.inl 0) + ind d i * β (.inl 1) + twfeT (K := K) (i, t) * β (.inl 2) + ind d i * twfeT (i, t) * β (.inl 3) +
        ∑ k, x i k * β (.inr k) := by
  rw [Fintype.sum_sum_type, Fin.sum_univ_four]
  simp [twfeX]

/-- Within-unit difference of residuals: unit-constant regressors drop out. -/
lemma twfe_res_diff (d : ι → Bool) (x : ι → κ → K) (y0 y1 : ι → K) (β : Fin 4 ⊕ κ → K) (i : ι) :
    twfeRes (twfeX d x) (twfeY y0 y1) β (i, true) - twfeRes (twfeX d x) (twfeY y0 y1) β (i, false) =
      y1 i - y0 i - β (.inl 2) - ind d i * β (.inl 3) := by
  unfold twfeRes
  rw [twfe_fit, twfe_fit]
  simp [twfeY, twfeT]
  ring

/-- The four normal equations that matter, unit by unit. -/
lemma twfe_normal {w : ι → K} {d : ι → Bool} {x : ι → κ → K} {y0 y1 : ι → K} {β : Fin 4 ⊕ κ → K}
    (h : NormalEq (twfeW w) allRows (twfeX d x) (twfeY y0 y1) β) :
    ∑ i, w i * (y1 i - y0 i - β (.inl 2) - ind d i * β (.inl 3)) = 0 ∧
    ∑ i, w i * ind d i * (y1 i - y0 i - β (.inl 2) - ind d i * β (.inl 3)) = 0 := by
  have e : ∀ k, ∑ r, twfeW w r * twfeRes (twfeX d x) (twfeY y0 y1) β r * twfeX d x r k = 0 := by
    intro k
    have := h k
    simpa [allRows, twfeRes] using this
  have h0 := e (.inl 0)
  have h1 := e (.inl 1)
  have h2 := e (.inl 2)
  have h3 := e (.inl 3)
  simp only [sum_rows, twfeX, twfeW, twfeT, if_true, Bool.false_eq_true, if_false, mul_one, mul_zero, add_zero]
    at h0 h1 h2 h3
  rw [Finset.sum_add_distrib] at h0 h1
  simp only [← twfe_res_diff d x y0 y1 β]
  constructor
  · rw [← sub_eq_zero.2 (show (0:K) = 0 from rfl)]
    have : ∑ i, w i * (twfeRes (twfeX d x) (twfeY y0 y1) β (i, true) - twfeRes (twfeX d x) (twfeY y0 y1) β (i, false)) =
        ∑ i, w i * twfeRes (twfeX d x) (twfeY y0 y1) β (i, true) -
        ∑ i, w i * twfeRes (twfeX d x) (twfeY y0 y1) β (i, false) := by
      rw [← Finset.sum_sub_distrib]; exact Finset.sum_congr rfl fun i _ => by ring
    rw [this]
    linear_combination 2 * h2 - h0
  · have : ∑ i, w i * ind d i *
          (twfeRes (twfeX d x) (twfeY y0 y1) β (i, true) - twfeRes (twfeX d x) (twfeY y0 y1) β (i, false)) =
        ∑ i, w i * twfeRes (twfeX d x) (twfeY y0 y1) β (i, true) * ind d i -
        ∑ i, w i * twfeRes (twfeX d x) (twfeY y0 y1) β (i, false) * ind d i := by
      rw [← Finset.sum_sub_distrib]; exact Finset.sum_congr rfl fun i _ => by ring
    rw [this]
    linear_combination 2 * h3 - h1

/-- Two weighted moment conditions pin down the two group means. -/
lemma group_moments {w dy : ι → K} {d : ι → Bool} {a b : K}
    (h0 : ∑ i, w i * (dy i - a - ind d i * b) = 0) (h1 : ∑ i, w i * ind d i * (dy i - a - ind d i * b) = 0)
    (ht : ∑ i with d i = true, w i ≠ 0) (hc : ∑ i with d i = false, w i ≠ 0) :
    a + b = wavg w (fun i => d i = true) dy ∧ a = wavg w (fun i => d i = false) dy := by
  have s1 : ∑ i, w i * ind d i * (dy i - a - ind d i * b) =
      (∑ i with d i = true, w i * dy i) - (a + b) * ∑ i with d i = true, w i := by
    have : ∑ i, w i * ind d i * (dy i - a - ind d i * b) = ∑ i, ind d i * (w i * dy i - (a + b) * w i) := by
      refine Finset.sum_congr rfl fun i _ => ?_
      cases hd : d i <;> simp [ind, hd]; ring
    rw [this, sum_ind, Finset.sum_sub_distrib, Finset.mul_sum]
  have s0 : ∑ i, w i * (dy i - a - ind d i * b) - ∑ i, w i * ind d i * (dy i - a - ind d i * b) =
      (∑ i with d i = false, w i * dy i) - a * ∑ i with d i = false, w i := by
    have : ∑ i, w i * (dy i - a - ind d i * b) - ∑ i, w i * ind d i * (dy i - a - ind d i * b) =
        ∑ i, ind (notB d) i * (w i * dy i - a * w i) := by
      rw [← Finset.sum_sub_distrib]
      refine Finset.sum_congr rfl fun i _ => ?_
      cases hd : d i <;> simp [ind, notB, hd]; ring
    rw [this, sum_ind, Finset.sum_sub_distrib, Finset.mul_sum]
    simp [notB]
  rw [h1] at s1
  rw [h0, h1, sub_zero] at s0
  unfold wavg
  constructor
  · rw [eq_div_iff ht]; linear_combination s1
  · rw [eq_div_iff hc]; linear_combination s0

/-- **C114 (panel).** Whatever covariates are passed, the interaction coefficient reported by `twfe_did_panel` is the
difference between the weighted mean changes of the two arms. -/
theorem C114_panel (w : ι → K) (d : ι → Bool) (x : ι → κ → K) (y0 y1 : ι → K) (β : Fin 4 ⊕ κ → K)
    (h : NormalEq (twfeW w) allRows (twfeX d x) (twfeY y0 y1) β)
    (ht : ∑ i with d i = true, w i ≠ 0) (hc : ∑ i with d i = false, w i ≠ 0) :
    β (.inl 3) = did2x2 w d y1 y0 := by
  obtain ⟨h0, h1⟩ := twfe_normal h
  obtain ⟨g1, g0⟩ := group_moments h0 h1 ht hc
  unfold did2x2
  rw [← g1, ← g0]; ring

/-- **C114 (repeated cross-sections).** Without covariates the coefficient reported by `twfe_did_rc` is the four-mean
difference-in-differences. -/
theorem C114_rc (w : ι → K) (d post : ι → Bool) (y : ι → K) (β : Fin 4 → K)
    (h : NormalEq w allRows (twfeXrc d post) y β)
    (h11 : ∑ i with d i = true ∧ post i = true, w i ≠ 0) (h10 : ∑ i with d i = true ∧ post i = false, w i ≠ 0)
    (h01 : ∑ i with d i = false ∧ post i = true, w i ≠ 0) (h00 : ∑ i with d i = false ∧ post i = false, w i ≠ 0) :
    β 3 = did4 w d post y := by
  have e : ∀ k, ∑ i, w i * (y i - (β 0 + ind post i * β 1 + ind d i * β 2 + ind d i * ind post i * β 3)) *
      twfeXrc d post i k = 0 := by
    intro k
    have := h k
    simp only [allRows, Finset.filter_true] at this
    rw [← this]
    refine Finset.sum_congr rfl fun i _ => ?_
    rw [Fin.sum_univ_four]
    simp [twfeXrc]
  have cell : ∀ a b : Bool, ∑ i with d i = a ∧ post i = b, w i * y i =
      (β 0 + (if b then β 1 else 0) + (if a then β 2 else 0) + (if a && b then β 3 else 0)) *
        ∑ i with d i = a ∧ post i = b, w i := by
    intro a b
    have hk0 := e 0
    have hk1 := e 1
    have hk2 := e 2
    have hk3 := e 3
    simp only [twfeXrc, Matrix.cons_val_zero, Matrix.cons_val_one, Matrix.cons_val, mul_one] at hk0 hk1 hk2 hk3
    rw [← sub_eq_zero, Finset.mul_sum, ← Finset.sum_sub_distrib, Finset.sum_filter]
    have key : ∀ c0 c1 c2 c3 : K, (∀ i, (if d i = a ∧ post i = b then
          w i * y i - (β 0 + (if b then β 1 else 0) + (if a then β 2 else 0) + (if a && b then β 3 else 0)) * w i else 0) =
        (c0 + c1 * ind post i + c2 * ind d i + c3 * (ind d i * ind post i)) *
          (w i * (y i - (β 0 + ind post i * β 1 + ind d i * β 2 + ind d i * ind post i * β 3)))) →
        ∑ i, (if d i = a ∧ post i = b then
          w i * y i - (β 0 + (if b then β 1 else 0) + (if a then β 2 else 0) + (if a && b then β 3 else 0)) * w i else 0)
          = 0 := by
      intro c0 c1 c2 c3 hi
      rw [Finset.sum_congr rfl fun i _ => hi i]
      have : ∀ i, (c0 + c1 * ind post i + c2 * ind d i + c3 * (ind d i * ind post i)) *
          (w i * (y i - (β 0 + ind post i * β 1 + ind d i * β 2 + ind d i * ind post i * β 3))) =
          c0 * (w i * (y i - (β 0 + ind post i * β 1 + ind d i * β 2 + ind d i * ind post i * β 3))) +
          c1 * (w i * (y i - (β 0 + ind post i * β 1 + ind d i * β 2 + ind d i * ind post i * β 3)) * ind post i) +
          c2 * (w i * (y i - (β 0 + ind post i * β 1 + ind d i * β 2 + ind d i * ind post i * β 3)) * ind d i) +
          c3 * (w i * (y i - (β 0 + ind post i * β 1 + ind d i * β 2 + ind d i * ind post i * β 3)) *
            (ind d i * ind post i)) := fun i => by ring
      simp only [this, Finset.sum_add_distrib, ← Finset.mul_sum]
      rw [hk0, hk1, hk2, hk3]; ring
    cases a <;> cases b
    · exact key 1 (-1) (-1) 1 fun i => by cases hd : d i <;> cases hp : post i <;> simp [ind, hd, hp]; ring
    · exact key 0 1 0 (-1) fun i => by cases hd : d i <;> cases hp : post i <;> simp [ind, hd, hp]; ring
    · exact key 0 0 1 (-1) fun i => by cases hd : d i <;> cases hp : post i <;> simp [ind, hd, hp]; ring
    · exact key 0 0 0 1 fun i => by cases hd : d i <;> cases hp : post i <;> simp [ind, hd, hp]; ring
  unfold did4 wavg
  rw [cell, cell, cell, cell, mul_div_cancel_right₀ _ h11, mul_div_cancel_right₀ _ h10, mul_div_cancel_right₀ _ h01,
    mul_div_cancel_right₀ _ h00]
  simp
  ring

/-! ## Influence values and the multiplier bootstrap -/

/-- Weighted share of treated units. -/
def treatShare (w : ι → K) (d : ι → Bool) : K := (∑ i, w i * ind d i) / ∑ i, w i

/-- The contrast the interaction column leaves after removing the other columns: `c (t - 1/2)(d - p)`. -/
def twfeContrast (w : ι → K) (d : ι → Bool) (i : ι) (t : Bool) : K :=
  (2 * (∑ _r : ι × Bool, (1:K)) / ∑ i, w i * ind d i * (ind d i - treatShare w d)) *
    (twfeT (i, t) - 1 / 2) * (ind d i - treatShare w d)

/-- Column of the inverse Gram matrix that belongs to the interaction. -/
lemma twfe_inverse_column [CharZero K] {w : ι → K} {d : ι → Bool} {x : ι → κ → K} {M : Fin 4 ⊕ κ → Fin 4 ⊕ κ → K}
    [DecidableEq κ]
    (hM' : ∀ k l, ∑ j, M k j * twfeGram (twfeW w) (twfeX d x) j l = if k = l then 1 else 0)
    (hw : ∑ i, w i ≠ 0) (hv : ∑ i, w i * ind d i * (ind d i - treatShare w d) ≠ 0) (i : ι) (t : Bool) :
    ∑ k, twfeX d x (i, t) k * M k (.inl 3) = twfeContrast w d i t := by
  have : Nonempty ι := ⟨i⟩
  set p := treatShare w d with hp
  set D := ∑ i, w i * ind d i * (ind d i - p) with hD
  set N : K := ∑ _r : ι × Bool, (1:K) with hN
  have hNe : N ≠ 0 := by
    rw [hN]; simp [Fintype.card_ne_zero]
  have hcard : (Fintype.card (ι × Bool) : K) = N := by rw [hN]; simp
  set c := 2 * N / D with hcdef
  -- the candidate solution
  let m : Fin 4 ⊕ κ → K := fun k => match k with
    | .inl 0 => c * p / 2
    | .inl 1 => -c / 2
    | .inl 2 => -c * p
    | .inl 3 => c
    | .inr _ => 0
  have hfit : ∀ j s, ∑ k, twfeX d x (j, s) k * m k = c * (twfeT (j, s) - 1 / 2) * (ind d j - p) := by
    intro j s
    rw [twfe_fit]
    simp only [m, mul_zero, Finset.sum_const_zero, add_zero]
    ring
  have hdev : ∑ i, w i * (ind d i - p) = 0 := by
    have : ∑ i, w i * (ind d i - p) = (∑ i, w i * ind d i) - p * ∑ i, w i := by
      rw [Finset.mul_sum, ← Finset.sum_sub_distrib]; exact Finset.sum_congr rfl fun i _ => by ring
    rw [this, hp]; unfold treatShare; field_simp; ring
  have hgm : ∀ k, ∑ j, twfeGram (twfeW w) (twfeX d x) k j * m j = if k = .inl 3 then 1 else 0 := by
    intro k
    have e : ∑ j, twfeGram (twfeW w) (twfeX d x) k j * m j =
        (∑ r : ι × Bool, twfeW w r * twfeX d x r k * ∑ j, twfeX d x r j * m j) / N := by
      unfold twfeGram
      rw [hcard, Finset.sum_div]
      simp only [Finset.mul_sum, Finset.sum_div]
      rw [Finset.sum_comm]
      refine Finset.sum_congr rfl fun j _ => ?_
      rw [Finset.sum_mul]
      exact Finset.sum_congr rfl fun r _ => by ring
    rw [e, sum_rows]
    simp only [hfit]
    match k with
    | .inl 0 =>
      have : ∑ i, (twfeW w (i, true) * twfeX d x (i, true) (.inl 0) * (c * (twfeT (i, true) - 1 / 2) * (ind d i - p)) +
          twfeW w (i, false) * twfeX d x (i, false) (.inl 0) * (c * (twfeT (i, false) - 1 / 2) * (ind d i - p))) = 0 :=
        Finset.sum_eq_zero fun i _ => by simp [twfeX, twfeT, twfeW]; ring
      rw [this]; simp
    | .inl 1 =>
      have : ∑ i, (twfeW w (i, true) * twfeX d x (i, true) (.inl 1) * (c * (twfeT (i, true) - 1 / 2) * (ind d i - p)) +
          twfeW w (i, false) * twfeX d x (i, false) (.inl 1) * (c * (twfeT (i, false) - 1 / 2) * (ind d i - p))) = 0 :=
        Finset.sum_eq_zero fun i _ => by simp [twfeX, twfeT, twfeW]; ring
      rw [this]; simp
    | .inl 2 =>
      have : ∑ i, (twfeW w (i, true) * twfeX d x (i, true) (.inl 2) * (c * (twfeT (i, true) - 1 / 2) * (ind d i - p)) +
          twfeW w (i, false) * twfeX d x (i, false) (.inl 2) * (c * (twfeT (i, false) - 1 / 2) * (ind d i - p))) =
          c / 2 * ∑ i, w i * (ind d i - p) := by
        rw [Finset.mul_sum]
        exact Finset.sum_congr rfl fun i _ => by simp [twfeX, twfeT, twfeW]; ring
      rw [this, hdev]; simp
    | .inl 3 =>
      have : ∑ i, (twfeW w (i, true) * twfeX d x (i, true) (.inl 3) * (c * (twfeT (i, true) - 1 / 2) * (ind d i - p)) +
          twfeW w (i, false) * twfeX d x (i, false) (.inl 3) * (c * (twfeT (i, false) - 1 / 2) * (ind d i - p))) =
          c / 2 * D := by
        rw [hD, Finset.mul_sum]
        exact Finset.sum_congr rfl fun i _ => by simp [twfeX, twfeT, twfeW]; ring
      rw [this, hcdef]
      rw [if_pos rfl]; field_simp
    | .inr q =>
      have : ∑ i, (twfeW w (i, true) * twfeX d x (i, true) (.inr q) * (c * (twfeT (i, true) - 1 / 2) * (ind d i - p)) +
          twfeW w (i, false) * twfeX d x (i, false) (.inr q) * (c * (twfeT (i, false) - 1 / 2) * (ind d i - p))) = 0 :=
        Finset.sum_eq_zero fun i _ => by simp [twfeX, twfeT, twfeW]; ring
      rw [this]; simp
  have hcol : ∀ k, M k (.inl 3) = m k := by
    intro k
    have h1 : ∑ a, M k a * ∑ j, twfeGram (twfeW w) (twfeX d x) a j * m j = M k (.inl 3) := by
      simp only [hgm, mul_ite, mul_one, mul_zero, Finset.sum_ite_eq', Finset.mem_univ, if_true]
    have h2 : ∑ a, M k a * ∑ j, twfeGram (twfeW w) (twfeX d x) a j * m j = m k := by
      simp only [Finset.mul_sum]
      rw [Finset.sum_comm]
      have : ∀ j, ∑ a, M k a * (twfeGram (twfeW w) (twfeX d x) a j * m j) = (if k = j then 1 else 0) * m j := by
        intro j
        rw [← hM' k j, Finset.sum_mul]
        exact Finset.sum_congr rfl fun a _ => by ring
      simp only [this, ite_mul, one_mul, zero_mul, Finset.sum_ite_eq, Finset.mem_univ, if_true]
    rw [← h1, h2]
  simp only [hcol]
  rw [hfit]
  unfold twfeContrast
  rw [← hp, ← hD, ← hN]

/-- Influence value of a unit in the difference of weighted mean changes (textbook form, sums over units only). -/
def didIF (w : ι → K) (d : ι → Bool) (y1 y0 : ι → K) (i : ι) : K :=
  if d i then w i * (y1 i - y0 i - wavg w (fun j => d j = true) (fun j => y1 j - y0 j)) /
      ((∑ j with d j = true, w j) / (Fintype.card ι : K))
  else -(w i * (y1 i - y0 i - wavg w (fun j => d j = false) (fun j => y1 j - y0 j)) /
      ((∑ j with d j = false, w j) / (Fintype.card ι : K)))

/-- **C116.** Every multiplier-bootstrap replication of `twfe_did_panel` equals the replication computed from the
influence function of the difference of mean changes, unit by unit with that unit's draw: the correlation between a
unit's two rows is accounted for, and the covariates play no role. -/
theorem C116_multiplier [CharZero K] [DecidableEq κ] (w : ι → K) (d : ι → Bool) (x : ι → κ → K) (y0 y1 : ι → K)
    (β : Fin 4 ⊕ κ → K) (M : Fin 4 ⊕ κ → Fin 4 ⊕ κ → K) (v : ι → K)
    (h : NormalEq (twfeW w) allRows (twfeX d x) (twfeY y0 y1) β)
    (hM : ∀ k l, ∑ j, M k j * twfeGram (twfeW w) (twfeX d x) j l = if k = l then 1 else 0)
    (ht : ∑ i with d i = true, w i ≠ 0) (hc : ∑ i with d i = false, w i ≠ 0) (hw : ∑ i, w i ≠ 0) :
    twfeMboot (twfeIF (twfeW w) (twfeX d x) (twfeY y0 y1) β M (.inl 3)) v =
      (∑ i, v i * didIF w d y1 y0 i) / (Fintype.card ι : K) := by
  obtain ⟨h0, h1⟩ := twfe_normal h
  obtain ⟨g1, g0⟩ := group_moments h0 h1 ht hc
  have hS1 : ∑ i, w i * ind d i = ∑ i with d i = true, w i := by
    rw [← sum_ind]; exact Finset.sum_congr rfl fun i _ => by ring
  have hS : ∑ i, w i = (∑ i with d i = true, w i) + ∑ i with d i = false, w i := by
    rw [← Finset.sum_filter_add_sum_filter_not Finset.univ (fun i => d i = true)]
    simp
  have hD : ∑ i, w i * ind d i * (ind d i - treatShare w d) =
      (∑ i with d i = true, w i) * (1 - treatShare w d) := by
    rw [← hS1, Finset.sum_mul]
    refine Finset.sum_congr rfl fun i _ => ?_
    cases hd : d i <;> simp [ind, hd]
  have hp : treatShare w d = (∑ i with d i = true, w i) / ∑ i, w i := by unfold treatShare; rw [hS1]
  have hp1 : 1 - treatShare w d = (∑ i with d i = false, w i) / ∑ i, w i := by
    rw [hp, eq_div_iff hw, sub_mul, div_mul_cancel₀ _ hw, hS]; ring
  have hDne : ∑ i, w i * ind d i * (ind d i - treatShare w d) ≠ 0 := by
    rw [hD, hp1]; exact mul_ne_zero ht (div_ne_zero hc hw)
  have hn : Nonempty ι := by
    by_contra hne
    rw [not_nonempty_iff] at hne
    exact hw (by simp)
  have hN : (Fintype.card ι : K) ≠ 0 := by exact_mod_cast Fintype.card_ne_zero
  have hIF : ∀ i t, twfeIF (twfeW w) (twfeX d x) (twfeY y0 y1) β M (.inl 3) (i, t) =
      w i * twfeRes (twfeX d x) (twfeY y0 y1) β (i, t) * twfeContrast w d i t := by
    intro i t
    rw [← twfe_inverse_column hM hw hDne i t]
    unfold twfeIF
    rw [Finset.mul_sum]
    exact Finset.sum_congr rfl fun k _ => by simp only [twfeW]; ring
  unfold twfeMboot mean
  rw [sum_rows]
  have hcard : (Fintype.card (ι × Bool) : K) = 2 * (Fintype.card ι : K) := by
    rw [Fintype.card_prod, Fintype.card_bool]; push_cast; ring
  rw [hcard, ← div_div, div_left_inj' hN, Finset.sum_div]
  refine Finset.sum_congr rfl fun i _ => ?_
  rw [hIF, hIF]
  have hN2 : (∑ _r : ι × Bool, (1:K)) = 2 * (Fintype.card ι : K) := by simp [mul_comm]
  have e : (w i * twfeRes (twfeX d x) (twfeY y0 y1) β (i, true) * twfeContrast w d i true * v i +
      w i * twfeRes (twfeX d x) (twfeY y0 y1) β (i, false) * twfeContrast w d i false * v i) / 2 =
      v i * w i * (y1 i - y0 i - β (.inl 2) - ind d i * β (.inl 3)) * (ind d i - treatShare w d) *
        (Fintype.card ι : K) / (∑ i, w i * ind d i * (ind d i - treatShare w d)) := by
    rw [← twfe_res_diff d x y0 y1 β i]
    unfold twfeContrast
    rw [hN2]
    simp only [twfeT, if_true, Bool.false_eq_true, if_false]
    field_simp
    ring
  rw [e, hD, hp1]
  unfold didIF
  rw [← g1, ← g0]
  cases hd : d i
  · simp only [ind, hd, Bool.false_eq_true, if_false]
    rw [hp]
    field_simp
    ring
  · simp only [ind, hd, if_true]
    rw [hp1]
    field_simp
    ring

/-! ## Unit-specific constants -/

/-- **C115.** Adding an arbitrary constant to both outcomes of each unit changes none of the panel estimates, nor the
two-way fixed-effects coefficient, nor any of its multiplier-bootstrap replications. -/
theorem C115_unit_shift [LinearOrder K] (ols : OLS ι κ K) (logit : Logit ι κ K) (lo hi level : K)
    (y1 y0 : ι → K) (d : ι → Bool) (x : ι → κ → K) (w α : ι → K) :
    drdidPanel ols logit lo hi level (fun i => y1 i + α i) (fun i => y0 i + α i) d x w =
      drdidPanel ols logit lo hi level y1 y0 d x w ∧
    drdidImpPanel ols logit lo hi level (fun i => y1 i + α i) (fun i => y0 i + α i) d x w =
      drdidImpPanel ols logit lo hi level y1 y0 d x w ∧
    regDidPanel ols (fun i => y1 i + α i) (fun i => y0 i + α i) d x w = regDidPanel ols y1 y0 d x w ∧
    stdIpwDidPanel logit lo hi level (fun i => y1 i + α i) (fun i => y0 i + α i) d x w =
      stdIpwDidPanel logit lo hi level y1 y0 d x w ∧
    ipwDidPanel logit lo hi level (fun i => y1 i + α i) (fun i => y0 i + α i) d x w =
      ipwDidPanel logit lo hi level y1 y0 d x w := by
  have e : (fun i => y1 i + α i - (y0 i + α i)) = fun i => y1 i - y0 i := by funext i; ring
  unfold drdidPanel drdidImpPanel regDidPanel stdIpwDidPanel ipwDidPanel
  simp only [add_sub_add_right_eq_sub, and_self]

theorem C115_unit_shift_twfe [CharZero K] [DecidableEq κ] (w : ι → K) (d : ι → Bool) (x : ι → κ → K) (y0 y1 α : ι → K)
    (β β' : Fin 4 ⊕ κ → K) (M : Fin 4 ⊕ κ → Fin 4 ⊕ κ → K) (v : ι → K)
    (h : NormalEq (twfeW w) allRows (twfeX d x) (twfeY y0 y1) β)
    (h' : NormalEq (twfeW w) allRows (twfeX d x) (twfeY (fun i => y0 i + α i) (fun i => y1 i + α i)) β')
    (hM : ∀ k l, ∑ j, M k j * twfeGram (twfeW w) (twfeX d x) j l = if k = l then 1 else 0)
    (ht : ∑ i with d i = true, w i ≠ 0) (hc : ∑ i with d i = false, w i ≠ 0) (hw : ∑ i, w i ≠ 0) :
    β' (.inl 3) = β (.inl 3) ∧
    twfeMboot (twfeIF (twfeW w) (twfeX d x) (twfeY (fun i => y0 i + α i) (fun i => y1 i + α i)) β' M (.inl 3)) v =
      twfeMboot (twfeIF (twfeW w) (twfeX d x) (twfeY y0 y1) β M (.inl 3)) v := by
  rw [C114_panel w d x _ _ β' h' ht hc, C114_panel w d x _ _ β h ht hc,
    C116_multiplier w d x _ _ β' M v h' hM ht hc hw, C116_multiplier w d x _ _ β M v h hM ht hc hw]
  constructor
  · unfold did2x2; simp only [add_sub_add_right_eq_sub]
  · unfold didIF; simp only [add_sub_add_right_eq_sub]

/-! ## Which draw a row gets -/

/-- **C117 (multiplier bootstrap).** Both rows of every unit get that unit's draw. -/
theorem C117_tile {A : Type*} (v : List A) (i : ℕ) (hi : i < v.length) (post : Bool) :
    (tileDraws v)[rowPos v.length i post]? = v[i]? := by
  unfold tileDraws rowPos
  cases post
  · simp [List.getElem?_append_left hi]
  · simp [List.getElem?_append_right]

lemma repeatDraws_get {A : Type*} (v : List A) (j : ℕ) : (repeatDraws v)[j]? = v[j / 2]? := by
  induction v generalizing j with
  | nil => simp [repeatDraws]
  | cons a v ih =>
    unfold repeatDraws at ih ⊢
    rw [List.flatMap_cons]
    match j with
    | 0 => simp
    | 1 => simp
    | j + 2 =>
      have : (j + 2) / 2 = j / 2 + 1 := by omega
      rw [this, List.getElem?_cons_succ, ← ih j]
      simp

/-- **C117 (violated, weighted bootstrap).** With two or more units, the two rows of the first unit get the draws of two
different units: the draws are laid out for data sorted by unit, the data are stacked by period. -/
theorem C117_repeat_violated {A : Type*} (v : List A) (hn : 2 ≤ v.length) :
    (repeatDraws v)[rowPos v.length 0 false]? = v[0]? ∧
    (repeatDraws v)[rowPos v.length 0 true]? = v[v.length / 2]? ∧
    0 < v.length / 2 ∧ (v.Nodup → (repeatDraws v)[rowPos v.length 0 true]? ≠ (repeatDraws v)[rowPos v.length 0 false]?) := by
  have h2 : 0 < v.length / 2 := by omega
  have e0 : (repeatDraws v)[rowPos v.length 0 false]? = v[0]? := by simp [rowPos, repeatDraws_get]
  have e1 : (repeatDraws v)[rowPos v.length 0 true]? = v[v.length / 2]? := by simp [rowPos, repeatDraws_get]
  refine ⟨e0, e1, h2, fun hnd => ?_⟩
  rw [e0, e1]
  have hl : v.length / 2 < v.length := by omega
  have hl0 : 0 < v.length := by omega
  rw [List.getElem?_eq_getElem hl, List.getElem?_eq_getElem hl0]
  intro hcontra
  have := (List.Nodup.getElem_inj_iff hnd).1 (Option.some.inj hcontra)
  omega

end Verif.DR
