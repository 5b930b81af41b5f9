import Verif.Honest.ArpLp

/-!
# The selection event of a non-degenerate optimal vertex, and systems of linear inequalities in one variable
-/

set_option linter.unusedSectionVars false
set_option linter.unusedSimpArgs false

namespace Verif.Honest

open Finset Matrix

variable {R r k : ℕ}

/-! ## The dual set in terms of the rows of `W` -/

theorem dual_w (S : Matrix (Fin r) (Fin r) ℝ) (X : Matrix (Fin r) (Fin k) ℝ) (g : Fin r → ℝ) (hg : g ∈ DualSet S X) (c : Fin (k + 1)) :
    ∑ i, g i * wRow S X i c = if c = 0 then 1 else 0 := by
  refine Fin.cases ?_ (fun j => ?_) c
  · simp only [wRow, Fin.cons_zero, if_true]
    rw [← hg.2.1]
    exact sum_congr rfl fun i _ => mul_comm _ _
  · simp only [wRow, Fin.cons_succ, Fin.succ_ne_zero, if_false]
    rw [← hg.2.2 j]
    exact sum_congr rfl fun i _ => mul_comm _ _

theorem dual_of_w (S : Matrix (Fin r) (Fin r) ℝ) (X : Matrix (Fin r) (Fin k) ℝ) (g : Fin r → ℝ) (h0 : ∀ i, 0 ≤ g i)
    (h : ∀ c : Fin (k + 1), ∑ i, g i * wRow S X i c = if c = 0 then 1 else 0) : g ∈ DualSet S X := by
  refine ⟨h0, ?_, fun j => ?_⟩
  · have := h 0
    simp only [wRow, Fin.cons_zero, if_true] at this
    rw [← this]
    exact sum_congr rfl fun i _ => mul_comm _ _
  · have := h j.succ
    simp only [wRow, Fin.cons_succ, Fin.succ_ne_zero, if_false] at this
    rw [← this]
    exact sum_congr rfl fun i _ => mul_comm _ _

/-! ## The basis of binding inequalities -/

theorem gammaB_dot (S : Matrix (Fin r) (Fin r) ℝ) (X : Matrix (Fin r) (Fin k) ℝ) (e : Fin (k + 1) → Fin r) (i : Fin r) (f : Fin r → ℝ) :
    ∑ j, gammaB S X e i j * f j = (∑ t, (wRow S X i ᵥ* (wB S X e)⁻¹) t * f (e t)) - f i := by
  have h1 : ∀ j, gammaB S X e i j * f j =
      (∑ t, (wRow S X i ᵥ* (wB S X e)⁻¹) t * ((if e t = j then f j else 0))) - if i = j then f j else 0 := by
    intro j
    unfold gammaB
    rw [sub_mul, sum_mul]
    congr 1
    · exact sum_congr rfl fun t _ => by split_ifs <;> ring
    · split_ifs <;> ring
  simp only [h1, sum_sub_distrib]
  rw [sum_comm]
  congr 1
  · refine sum_congr rfl fun t _ => ?_
    rw [← mul_sum]
    simp
  · simp

theorem vB_dot (S : Matrix (Fin r) (Fin r) ℝ) (X : Matrix (Fin r) (Fin k) ℝ) (e : Fin (k + 1) → Fin r) (f : Fin r → ℝ) :
    ∑ j, vB S X e j * f j = ∑ t, (wB S X e)⁻¹ 0 t * f (e t) := by
  have h1 : ∀ j, vB S X e j * f j = ∑ t, (wB S X e)⁻¹ 0 t * ((if e t = j then f j else 0)) := by
    intro j
    unfold vB
    rw [sum_mul]
    exact sum_congr rfl fun t _ => by split_ifs <;> ring
  simp only [h1]
  rw [sum_comm]
  refine sum_congr rfl fun t _ => ?_
  rw [← mul_sum]
  simp

/-- Sums over all inequalities of weights supported on the basis. -/
theorem sum_basis (e : Fin (k + 1) → Fin r) (he : Function.Injective e) (g f : Fin r → ℝ) (hsup : ∀ i, i ∉ Set.range e → g i = 0) :
    ∑ i, g i * f i = ∑ t, g (e t) * f (e t) := by
  rw [← sum_image (s := univ) (g := e) (f := fun i => g i * f i) (fun a _ b _ h => he h)]
  symm
  refine sum_subset (subset_univ _) fun i _ hi => ?_
  rw [hsup i (by rintro ⟨t, rfl⟩; exact hi (mem_image_of_mem e (mem_univ t))), zero_mul]

/-- The weights of the basis solution are the multipliers. -/
theorem vB_eq (S : Matrix (Fin r) (Fin r) ℝ) (X : Matrix (Fin r) (Fin k) ℝ) (e : Fin (k + 1) → Fin r) (he : Function.Injective e)
    (hdet : (wB S X e).det ≠ 0) (g : Fin r → ℝ) (hg : g ∈ DualSet S X) (hsup : ∀ i, i ∉ Set.range e → g i = 0) : vB S X e = g := by
  have hu : IsUnit (wB S X e).det := hdet.isUnit
  have h1 : (fun t => g (e t)) ᵥ* wB S X e = fun c => if c = 0 then (1 : ℝ) else 0 := by
    funext c
    have := dual_w S X g hg c
    rw [sum_basis e he g (fun i => wRow S X i c) hsup] at this
    exact this
  have h2 : (fun t => g (e t)) = fun t => (wB S X e)⁻¹ 0 t := by
    have : (fun t => g (e t)) = ((fun t => g (e t)) ᵥ* wB S X e) ᵥ* (wB S X e)⁻¹ := by
      rw [vecMul_vecMul, Matrix.mul_nonsing_inv _ hu, vecMul_one]
    rw [this, h1]
    funext t
    simp [vecMul, dotProduct]
  funext j
  unfold vB
  by_cases hj : j ∈ Set.range e
  · obtain ⟨t0, rfl⟩ := hj
    rw [sum_eq_single t0]
    · rw [if_pos rfl, mul_one, ← congrFun h2 t0]
    · intro t _ ht
      rw [if_neg (fun h => ht (he h)), mul_zero]
    · simp
  · rw [hsup j hj]
    refine sum_eq_zero fun t _ => ?_
    rw [if_neg (fun h => hj ⟨t, h⟩), mul_zero]

/-- A small step from `g` along `c` stays non-negative if `c` only decreases positive entries. -/
theorem small_step (g c : Fin r → ℝ) (hg : ∀ i, 0 ≤ g i) (hc : ∀ i, g i = 0 → c i ≤ 0) : ∃ ε : ℝ, 0 < ε ∧ ∀ i, ε * c i ≤ g i := by
  have : ∀ i : Fin r, ∃ ε : ℝ, 0 < ε ∧ ∀ e, 0 < e → e ≤ ε → e * c i ≤ g i := by
    intro i
    rcases (hg i).lt_or_eq with h | h
    · refine ⟨g i / (|c i| + 1), by positivity, fun e he0 he => ?_⟩
      calc e * c i ≤ e * |c i| := mul_le_mul_of_nonneg_left (le_abs_self _) he0.le
        _ ≤ g i / (|c i| + 1) * |c i| := mul_le_mul_of_nonneg_right he (abs_nonneg _)
        _ ≤ g i := by
          rw [div_mul_eq_mul_div, div_le_iff₀ (by positivity)]
          exact mul_le_mul_of_nonneg_left (by linarith [abs_nonneg (c i)]) h.le
    · refine ⟨1, one_pos, fun e he _ => ?_⟩
      have := mul_nonneg he.le (sub_nonneg.2 (hc i h.symm))
      rw [← h]
      linarith
  choose f hf0 hf using this
  by_cases hr : Nonempty (Fin r)
  · refine ⟨univ.inf' univ_nonempty f, ?_, fun i => ?_⟩
    · rw [lt_inf'_iff]
      exact fun i _ => hf0 i
    · refine hf i _ ?_ (inf'_le f (mem_univ i))
      rw [lt_inf'_iff]
      exact fun i _ => hf0 i
  · exact ⟨1, one_pos, fun i => absurd ⟨i⟩ hr⟩

/-- The multipliers stay optimal exactly when the inequalities outside the basis hold at the basis solution. -/
theorem basis_opt (S : Matrix (Fin r) (Fin r) ℝ) (X : Matrix (Fin r) (Fin k) ℝ) (e : Fin (k + 1) → Fin r) (he : Function.Injective e)
    (hdet : (wB S X e).det ≠ 0) (g : Fin r → ℝ) (hg : g ∈ DualSet S X) (hsup : ∀ i, i ∉ Set.range e → g i = 0)
    (hpos : ∀ t, 0 < g (e t)) (u : Fin r → ℝ) : OptAt S X u g ↔ ∀ i, i ∉ Set.range e → 0 ≤ gammaB S X e i ⬝ᵥ u := by
  have hu : IsUnit (wB S X e).det := hdet.isUnit
  constructor
  · intro hopt i hi
    obtain ⟨ε, hε, hle⟩ := small_step g (gammaB S X e i) hg.1 (by
      intro j hj
      unfold gammaB
      rw [sum_eq_zero, zero_sub]
      · split_ifs <;> norm_num
      · intro t _
        rw [if_neg, mul_zero]
        rintro rfl
        exact (hpos t).ne' hj)
    have hmem : (fun j => g j - ε * gammaB S X e i j) ∈ DualSet S X := by
      refine dual_of_w S X _ (fun j => by linarith [hle j]) fun c => ?_
      have h1 : ∑ j, gammaB S X e i j * wRow S X j c = 0 := by
        rw [gammaB_dot S X e i (fun j => wRow S X j c)]
        have : ∑ t, (wRow S X i ᵥ* (wB S X e)⁻¹) t * wRow S X (e t) c = ((wRow S X i ᵥ* (wB S X e)⁻¹) ᵥ* wB S X e) c := rfl
        rw [this, vecMul_vecMul, Matrix.nonsing_inv_mul _ hu, vecMul_one, sub_self]
      have h2 : ∑ j, (g j - ε * gammaB S X e i j) * wRow S X j c =
          ∑ j, g j * wRow S X j c - ε * ∑ j, gammaB S X e i j * wRow S X j c := by
        rw [mul_sum, ← sum_sub_distrib]
        exact sum_congr rfl fun j _ => by ring
      rw [h2, h1, mul_zero, sub_zero]
      exact dual_w S X g hg c
    have := hopt.2 _ hmem
    have h3 : (fun j => g j - ε * gammaB S X e i j) ⬝ᵥ u = g ⬝ᵥ u - ε * (gammaB S X e i ⬝ᵥ u) := by
      simp only [dotProduct, mul_sum, ← sum_sub_distrib]
      exact sum_congr rfl fun j _ => by ring
    rw [h3] at this
    have h4 : 0 ≤ ε * (gammaB S X e i ⬝ᵥ u) := by linarith
    exact nonneg_of_mul_nonneg_right h4 hε
  · intro h
    set p : Fin (k + 1) → ℝ := (wB S X e)⁻¹ *ᵥ fun t => u (e t) with hp
    have hW : ∀ i, wRow S X i ⬝ᵥ p = sdVec S i * p 0 + (X *ᵥ fun j => p j.succ) i := by
      intro i
      rw [dotProduct, Fin.sum_univ_succ]
      rfl
    have hbas : wB S X e *ᵥ p = fun t => u (e t) := by
      rw [hp, mulVec_mulVec, Matrix.mul_nonsing_inv _ hu, one_mulVec]
    have hin : ∀ t, wRow S X (e t) ⬝ᵥ p = u (e t) := fun t => congrFun hbas t
    have hfeas : ∀ i, u i ≤ sdVec S i * p 0 + (X *ᵥ fun j => p j.succ) i := by
      intro i
      rw [← hW]
      by_cases hi : i ∈ Set.range e
      · obtain ⟨t, rfl⟩ := hi
        exact (hin t).ge
      · have := h i hi
        have h1 : gammaB S X e i ⬝ᵥ u = wRow S X i ⬝ᵥ p - u i := by
          rw [dotProduct, gammaB_dot, hp, dotProduct_mulVec]
          rfl
        rw [h1] at this
        linarith
    refine ⟨hg, fun g' hg' => ?_⟩
    have hval : g ⬝ᵥ u = p 0 := by
      rw [dotProduct, sum_basis e he g u hsup]
      have h1 : ∀ t, g (e t) * u (e t) = ∑ c, g (e t) * wRow S X (e t) c * p c := by
        intro t
        rw [← hin t, dotProduct, mul_sum]
        exact sum_congr rfl fun c _ => by ring
      simp only [h1]
      rw [sum_comm]
      have h2 : ∀ c, ∑ t, g (e t) * wRow S X (e t) c * p c = (if c = 0 then 1 else 0) * p c := by
        intro c
        rw [← sum_mul, ← dual_w S X g hg c, sum_basis e he g (fun i => wRow S X i c) hsup]
      simp only [h2]
      simp
    rw [hval]
    exact weak_duality S X u g' hg' (p 0) _ hfeas

/-- The basis matrix is invertible for a non-degenerate vertex: the test does not raise `LinAlgError`. -/
theorem basis_det (S : Matrix (Fin r) (Fin r) ℝ) (X : Matrix (Fin r) (Fin k) ℝ) (B : Finset (Fin r)) (hB : B.card = k + 1)
    (hr : FullRank X B) (g : Fin r → ℝ) (hg : g ∈ DualSet S X) (hsup : ∀ i, i ∉ B → g i = 0) :
    (wB S X (B.orderEmbOfFin hB)).det ≠ 0 := by
  set e := B.orderEmbOfFin hB with he
  have hrange : ∀ i, i ∉ Set.range e → g i = 0 := by
    intro i hi
    refine hsup i fun h => hi ?_
    have : Set.range e = (B : Set (Fin r)) := Finset.range_orderEmbOfFin B hB
    rw [this]
    exact h
  intro hdet
  obtain ⟨v, hv0, hv⟩ := Matrix.exists_mulVec_eq_zero_iff.2 hdet
  have hrow : ∀ t, wRow S X (e t) ⬝ᵥ v = 0 := fun t => congrFun hv t
  have hv00 : v 0 = 0 := by
    have h1 : ∑ t, g (e t) * (wRow S X (e t) ⬝ᵥ v) = v 0 := by
      have h1 : ∀ t, g (e t) * (wRow S X (e t) ⬝ᵥ v) = ∑ c, g (e t) * wRow S X (e t) c * v c := by
        intro t
        rw [dotProduct, mul_sum]
        exact sum_congr rfl fun c _ => by ring
      simp only [h1]
      rw [sum_comm]
      have h2 : ∀ c, ∑ t, g (e t) * wRow S X (e t) c * v c = (if c = 0 then 1 else 0) * v c := by
        intro c
        rw [← sum_mul, ← dual_w S X g hg c, sum_basis e e.injective g (fun i => wRow S X i c) hrange]
      simp only [h2]
      simp
    rw [← h1]
    exact sum_eq_zero fun t _ => by rw [hrow t, mul_zero]
  have hX : X.submatrix (fun i : B => i.1) id *ᵥ (fun j => v j.succ) = 0 := by
    funext i
    have hi : i.1 ∈ Set.range e := by
      have : Set.range e = (B : Set (Fin r)) := Finset.range_orderEmbOfFin B hB
      rw [this]
      exact i.2
    obtain ⟨t, ht⟩ := hi
    have := hrow t
    rw [dotProduct, Fin.sum_univ_succ, hv00, mul_zero, zero_add] at this
    rw [ht] at this
    exact this
  have hrk : (X.submatrix (fun i : B => i.1) id).rank = k := by
    rw [hr.2.2, hB]
    omega
  have hinj : Function.Injective (X.submatrix (fun i : B => i.1) id).mulVec := by
    rw [Matrix.mulVec_injective_iff]
    rw [linearIndependent_iff_card_eq_finrank_span]
    rw [Matrix.rank_eq_finrank_span_cols] at hrk
    rw [Fintype.card_fin]
    exact hrk.symm
  have h0 : (fun j => v (Fin.succ j)) = 0 := hinj (by simpa using hX)
  apply hv0
  funext c
  refine Fin.cases hv00 (fun j => congrFun h0 j) c

/-! ## Inequalities in one variable -/

/-- The points of the truncation interval are the solutions of the inequalities `a x <= b`, if one solution exists. -/
theorem trunc_system {ι : Type*} (l : List ι) (a b : ι → ℝ) (x0 : ℝ) (h0 : ∀ i ∈ l, a i * x0 ≤ b i) (x : ℝ) :
    x ∈ truncSet (accum max ((l.filter fun i => decide (a i < 0)).map fun i => b i / a i) Bnd.infinite)
      (accum min ((l.filter fun i => decide (0 < a i)).map fun i => b i / a i) Bnd.infinite) ↔ ∀ i ∈ l, a i * x ≤ b i := by
  constructor
  · intro h i hi
    obtain ⟨h1, h2⟩ := h
    rw [accum_max_low] at h1
    rw [accum_min_up] at h2
    rcases lt_trichotomy (a i) 0 with h | h | h
    · have := h1 (b i / a i) (List.mem_map_of_mem (List.mem_filter.2 ⟨hi, by simpa using h⟩))
      rw [div_le_iff_of_neg h] at this
      linarith
    · have := h0 i hi
      rw [h] at this ⊢
      linarith
    · have := h2 (b i / a i) (List.mem_map_of_mem (List.mem_filter.2 ⟨hi, by simpa using h⟩))
      rw [le_div_iff₀ h] at this
      linarith
  · intro h
    refine ⟨?_, ?_⟩
    · rw [accum_max_low]
      intro y hy
      obtain ⟨i, hi, rfl⟩ := List.mem_map.1 hy
      have hi2 := List.mem_filter.1 hi
      have hneg : a i < 0 := by simpa using hi2.2
      rw [div_le_iff_of_neg hneg]
      have := h i hi2.1
      linarith
    · rw [accum_min_up]
      intro y hy
      obtain ⟨i, hi, rfl⟩ := List.mem_map.1 hy
      have hi2 := List.mem_filter.1 hi
      have hpos : 0 < a i := by simpa using hi2.2
      rw [le_div_iff₀ hpos]
      have := h i hi2.1
      linarith

theorem okLow_of_in (b : Bnd ℝ) (x : ℝ) (h : b.inLow x) : b.okLow x := by
  cases b with
  | fin l => exact le_of_lt h
  | infinite => exact h
  | nan => exact h

theorem okUp_of_in (b : Bnd ℝ) (x : ℝ) (h : b.inUp x) : b.okUp x := by
  cases b with
  | fin l => exact le_of_lt h
  | infinite => exact h
  | nan => exact h

theorem maxLow_ok (a b : Bnd ℝ) (ha : a ≠ Bnd.nan) (hb : b ≠ Bnd.nan) (x : ℝ) : (a.maxLow b).okLow x ↔ a.okLow x ∧ b.okLow x := by
  cases a <;> cases b <;> simp_all [Bnd.maxLow, Bnd.okLow]

theorem minUp_ok (a b : Bnd ℝ) (ha : a ≠ Bnd.nan) (hb : b ≠ Bnd.nan) (x : ℝ) : (a.minUp b).okUp x ↔ a.okUp x ∧ b.okUp x := by
  cases a <;> cases b <;> simp_all [Bnd.minUp, Bnd.okUp]

theorem maxLow_in (a b : Bnd ℝ) (ha : a ≠ Bnd.nan) (hb : b ≠ Bnd.nan) (x : ℝ) : (a.maxLow b).inLow x ↔ a.inLow x ∧ b.inLow x := by
  cases a <;> cases b <;> simp_all [Bnd.maxLow, Bnd.inLow]

theorem minUp_in (a b : Bnd ℝ) (ha : a ≠ Bnd.nan) (hb : b ≠ Bnd.nan) (x : ℝ) : (a.minUp b).inUp x ↔ a.inUp x ∧ b.inUp x := by
  cases a <;> cases b <;> simp_all [Bnd.minUp, Bnd.inUp]

theorem maxLow_nan (a b : Bnd ℝ) (ha : a ≠ Bnd.nan) (hb : b ≠ Bnd.nan) : a.maxLow b ≠ Bnd.nan := by
  cases a <;> cases b <;> simp_all [Bnd.maxLow]

theorem minUp_nan (a b : Bnd ℝ) (ha : a ≠ Bnd.nan) (hb : b ≠ Bnd.nan) : a.minUp b ≠ Bnd.nan := by
  cases a <;> cases b <;> simp_all [Bnd.minUp]

theorem norminvp_not_nan (p mu sd : ℝ) (lo up : Bnd ℝ) (hl : lo ≠ Bnd.nan) (hu : up ≠ Bnd.nan) (c : Ext)
    (h : norminvp p lo up mu sd = some c) : c ≠ Ext.nan := by
  have a1 : lo.asLower ≠ Ext.nan := by cases lo <;> simp_all [Bnd.asLower]
  have a2 : up.asUpper ≠ Ext.nan := by cases up <;> simp_all [Bnd.asUpper]
  unfold norminvp at h
  dsimp only at h
  split_ifs at h <;> simp_all <;> (subst h; simp_all)

end Verif.Honest
