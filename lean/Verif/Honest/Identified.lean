import Verif.Honest.Relative

/-!
# C63: identified sets
-/

set_option linter.unusedSectionVars false
set_option linter.unusedSimpArgs false

namespace Verif.Honest

open Finset

variable {K : Type*} [Field K] [LinearOrder K] [IsStrictOrderedRing K]

/-! ### The reported interval, for any feasible set -/

theorem lp_some {S : Set (ℕ → K)} {f : (ℕ → K) → K} {r : Option K} (h : LpMin S f r) (B : K) (hb : ∀ v ∈ S, |f v| ≤ B)
    (hne : S.Nonempty) : ∃ m, r = some m ∧ IsLeast (f '' S) m := by
  cases r with
  | some m => exact ⟨m, rfl, h⟩
  | none =>
    rcases h with h | h
    · exact absurd h hne.ne_empty
    · refine absurd ⟨-B, ?_⟩ h
      rintro _ ⟨v, hv, rfl⟩
      exact (abs_le.1 (hb v hv)).1

theorem bounds_iff {S : Set (ℕ → K)} {f : (ℕ → K) → K} (obs : K) {rmax rmin : Option K}
    (hM : LpMin S (fun v => -f v) rmax) (hm : LpMin S f rmin) (B : K) (hb : ∀ v ∈ S, |f v| ≤ B) (hne : S.Nonempty) :
    (∀ v ∈ S, (bounds obs rmax rmin).1 ≤ obs - f v ∧ obs - f v ≤ (bounds obs rmax rmin).2) ∧
      (∃ u ∈ S, obs - f u = (bounds obs rmax rmin).1) ∧ ∃ w ∈ S, obs - f w = (bounds obs rmax rmin).2 := by
  obtain ⟨a, rfl, ⟨⟨u, hu, hfu⟩, ha⟩⟩ := lp_some hM B (fun v hv => by rw [abs_neg]; exact hb v hv) hne
  obtain ⟨b, rfl, ⟨⟨w, hw, hfw⟩, hb'⟩⟩ := lp_some hm B hb hne
  refine ⟨?_, ⟨u, hu, ?_⟩, ⟨w, hw, ?_⟩⟩
  · intro v hv
    have h1 := ha ⟨v, hv, rfl⟩
    have h2 := hb' ⟨v, hv, rfl⟩
    simp only at h1
    constructor
    · show obs + a ≤ obs - f v
      linarith
    · show obs - f v ≤ obs - b
      linarith
  · simp only at hfu
    show obs - f u = obs + a
    rw [← hfu]; ring
  · show obs - f w = obs - b
    rw [hfw]

/-- Convexity fills the interval. -/
theorem bounds_fill {S : Set (ℕ → K)} {f : (ℕ → K) → K} (obs lo hi : K)
    (hconv : ∀ u ∈ S, ∀ w ∈ S, ∀ t : K, 0 ≤ t → t ≤ 1 → (fun j => (1 - t) * u j + t * w j) ∈ S)
    (hlin : ∀ (u w : ℕ → K) (t : K), f (fun j => (1 - t) * u j + t * w j) = (1 - t) * f u + t * f w)
    (h1 : ∃ u ∈ S, obs - f u = lo) (h2 : ∃ w ∈ S, obs - f w = hi) (θ : K) (hlo : lo ≤ θ) (hhi : θ ≤ hi) :
    ∃ v ∈ S, obs - f v = θ := by
  obtain ⟨u, hu, e1⟩ := h1
  obtain ⟨w, hw, e2⟩ := h2
  by_cases h : lo = hi
  · exact ⟨u, hu, by rw [e1]; exact le_antisymm hlo (h ▸ hhi)⟩
  · have hlt : 0 < hi - lo := sub_pos.2 (lt_of_le_of_ne (hlo.trans hhi) h)
    refine ⟨_, hconv u hu w hw ((θ - lo) / (hi - lo)) (div_nonneg (sub_nonneg.2 hlo) hlt.le)
      ((div_le_one hlt).2 (by linarith)), ?_⟩
    rw [hlin]
    have hc : (θ - lo) / (hi - lo) * (hi - lo) = θ - lo := div_mul_cancel₀ _ hlt.ne'
    have e3 : f w = f u - (hi - lo) := by linarith
    rw [e3]
    linear_combination e1 + hc

theorem target_lin (p q : ℕ) (l u w : ℕ → K) (t : K) :
    target p q l (fun j => (1 - t) * u j + t * w j) = (1 - t) * target p q l u + t * target p q l w := by
  unfold target
  rw [mul_sum, mul_sum, ← sum_add_distrib]
  exact sum_congr rfl fun k _ => by ring

theorem dotN_comb (n : ℕ) (a u w : ℕ → K) (t : K) :
    dotN n a (fun j => (1 - t) * u j + t * w j) = (1 - t) * dotN n a u + t * dotN n a w := by
  unfold dotN
  rw [mul_sum, mul_sum, ← sum_add_distrib]
  exact sum_congr rfl fun k _ => by ring

theorem sat_conv (n : ℕ) (A : List (ℕ → K)) (d : K) (u w : ℕ → K) (hu : Sat n A d u) (hw : Sat n A d w) (t : K) (h0 : 0 ≤ t)
    (h1 : t ≤ 1) : Sat n A d (fun j => (1 - t) * u j + t * w j) := by
  intro a ha
  rw [dotN_comb]
  have e1 := mul_le_mul_of_nonneg_left (hu a ha) (sub_nonneg.2 h1)
  have e2 := mul_le_mul_of_nonneg_left (hw a ha) h0
  linarith

theorem feasible_conv (p q : ℕ) (A : List (ℕ → K)) (d : K) (beta : ℕ → K) :
    ∀ u ∈ feasible p q A d beta, ∀ w ∈ feasible p q A d beta, ∀ t : K, 0 ≤ t → t ≤ 1 →
      (fun j => (1 - t) * u j + t * w j) ∈ feasible p q A d beta := by
  rintro u ⟨hu1, hu2⟩ w ⟨hw1, hw2⟩ t h0 h1
  refine ⟨sat_conv _ _ _ _ _ hu1 hw1 t h0 h1, ?_⟩
  intro j hj
  simp only [hu2 j hj, hw2 j hj]
  ring

theorem feasibleWith_conv (p q : ℕ) (A : List (ℕ → K)) (d : K) (B : List (ℕ → K)) (beta : ℕ → K) :
    ∀ u ∈ feasibleWith p q A d B beta, ∀ w ∈ feasibleWith p q A d B beta, ∀ t : K, 0 ≤ t → t ≤ 1 →
      (fun j => (1 - t) * u j + t * w j) ∈ feasibleWith p q A d B beta := by
  rintro u ⟨⟨hu1, hu3⟩, hu2⟩ w ⟨⟨hw1, hw3⟩, hw2⟩ t h0 h1
  refine ⟨⟨sat_conv _ _ _ _ _ hu1 hw1 t h0 h1, sat_conv _ _ _ _ _ hu3 hw3 t h0 h1⟩, ?_⟩
  intro j hj
  simp only [hu2 j hj, hw2 j hj]
  ring

theorem target_bounded (p q : ℕ) (l : ℕ → K) (S : Set (ℕ → K))
    (h : ∀ k < q, ∃ B, ∀ v ∈ S, |v (p + k)| ≤ B) : ∃ B, ∀ v ∈ S, |target p q l v| ≤ B := by
  choose! B hB using h
  refine ⟨∑ k ∈ range q, |l k| * B k, fun v hv => ?_⟩
  unfold target
  refine (abs_sum_le_sum_abs _ _).trans (sum_le_sum fun k hk => ?_)
  rw [abs_mul]
  exact mul_le_mul_of_nonneg_left (hB k (mem_range.1 hk) v hv) (abs_nonneg _)

theorem full_post (p k : ℕ) (v : ℕ → K) : full p v (p + k + 1) = v (p + k) := by
  unfold full
  rw [if_neg (by omega), if_neg (by omega)]
  congr 1

/-- Bounded second differences from the last two fixed values on: every later value is bounded. -/
theorem sd_values (p q : ℕ) (hp : 1 ≤ p) (S : Set (ℕ → K)) (beta : ℕ → K) (M : K) (hpre : ∀ v ∈ S, ∀ j < p, v j = beta j)
    (hS : ∀ v ∈ S, ∀ t, p + 1 ≤ t + 2 → t + 2 ≤ p + q → |D2 (full p v) t| ≤ M) :
    ∀ k ≤ q, ∃ B, ∀ v ∈ S, |full p v (p + k - 1)| ≤ B ∧ |full p v (p + k)| ≤ B := by
  intro k
  induction k with
  | zero =>
    intro _
    refine ⟨|beta (p - 1)|, fun v hv => ⟨?_, ?_⟩⟩
    · unfold full
      rw [if_pos (by omega)]
      exact le_of_eq (by rw [← hpre v hv (p - 1) (by omega)]; rfl)
    · unfold full
      rw [if_neg (by omega), if_pos (by omega), abs_zero]
      exact abs_nonneg _
  | succ k ih =>
    intro hk
    obtain ⟨B, hB⟩ := ih (by omega)
    refine ⟨max B (M + 3 * B), fun v hv => ?_⟩
    obtain ⟨h1, h2⟩ := hB v hv
    have h3 := hS v hv (p + k - 1) (by omega) (by omega)
    have i1 : p + (k + 1) - 1 = p + k := by omega
    have i2 : p + k - 1 + 1 = p + k := by omega
    have i3 : p + k - 1 + 2 = p + (k + 1) := by omega
    unfold D2 at h3
    rw [i2, i3] at h3
    rw [i1]
    refine ⟨h2.trans (le_max_left _ _), le_trans ?_ (le_max_right _ _)⟩
    rw [abs_le] at h1 h2 h3 ⊢
    constructor <;> linarith [h1.1, h1.2, h2.1, h2.2, h3.1, h3.2]

theorem sd_bounded (p q : ℕ) (hp : 1 ≤ p) (l : ℕ → K) (S : Set (ℕ → K)) (beta : ℕ → K) (M : K)
    (hpre : ∀ v ∈ S, ∀ j < p, v j = beta j)
    (hS : ∀ v ∈ S, ∀ t, p + 1 ≤ t + 2 → t + 2 ≤ p + q → |D2 (full p v) t| ≤ M) :
    ∃ B, ∀ v ∈ S, |target p q l v| ≤ B := by
  refine target_bounded p q l S fun k hk => ?_
  obtain ⟨B, hB⟩ := sd_values p q hp S beta M hpre hS (k + 1) (by omega)
  refine ⟨B, fun v hv => ?_⟩
  have := (hB v hv).2
  rwa [show p + (k + 1) = p + k + 1 by ring, full_post] at this

theorem obs_sub (p q : ℕ) (l beta δ : ℕ → K) :
    target p q l beta - target p q l δ = ∑ k ∈ range q, l k * (beta (p + k) - δ (p + k)) := by
  unfold target
  rw [← sum_sub_distrib]
  exact sum_congr rfl fun k _ => by ring

/-- The general statement: exact set, when the feasible paths are the documented ones. -/
theorem exact_of (p q : ℕ) (beta l : ℕ → K) (Δ S : Set (ℕ → K)) (hS : S = {v | v ∈ Δ ∧ ∀ j < p, v j = beta j})
    (hconv : ∀ u ∈ S, ∀ w ∈ S, ∀ t : K, 0 ≤ t → t ≤ 1 → (fun j => (1 - t) * u j + t * w j) ∈ S)
    (hb : ∃ B, ∀ v ∈ S, |target p q l v| ≤ B) (rmax rmin : Option K)
    (hM : LpMin S (fun v => -target p q l v) rmax) (hm : LpMin S (target p q l) rmin)
    (hne : (IdSet p q Δ beta l).Nonempty) (θ : K) :
    ((bounds (target p q l beta) rmax rmin).1 ≤ θ ∧ θ ≤ (bounds (target p q l beta) rmax rmin).2) ↔
      θ ∈ IdSet p q Δ beta l := by
  obtain ⟨B, hB⟩ := hb
  have hne' : S.Nonempty := by
    obtain ⟨_, δ, h1, h2, _⟩ := hne
    exact ⟨δ, by rw [hS]; exact ⟨h1, h2⟩⟩
  obtain ⟨h1, h2, h3⟩ := bounds_iff (target p q l beta) hM hm B hB hne'
  constructor
  · rintro ⟨ha, hb⟩
    obtain ⟨v, hv, e⟩ := bounds_fill (f := target p q l) _ _ _ hconv (target_lin p q l) h2 h3 θ ha hb
    rw [hS] at hv
    exact ⟨v, hv.1, hv.2, by rw [← e, obs_sub]⟩
  · rintro ⟨δ, hd, hpre, rfl⟩
    rw [← obs_sub]
    exact h1 δ (by rw [hS]; exact ⟨hd, hpre⟩)

/-! ### Smoothness -/

/-- C63.  With at least one pre-period the interval reported under a smoothness bound is EXACTLY the identified set, as soon
as the restriction is compatible with the pre-treatment coefficients. -/
theorem C63_sd_exact (p q : ℕ) (hp : 1 ≤ p) (M : K) (beta l : ℕ → K) (rmax rmin : Option K)
    (hM : LpMin (feasible p q (sdMatrix p q) M beta) (fun v => -target p q l v) rmax)
    (hm : LpMin (feasible p q (sdMatrix p q) M beta) (target p q l) rmin)
    (hne : (IdSet p q (DeltaSD p q M) beta l).Nonempty) (θ : K) :
    ((bounds (target p q l beta) rmax rmin).1 ≤ θ ∧ θ ≤ (bounds (target p q l beta) rmax rmin).2) ↔
      θ ∈ IdSet p q (DeltaSD p q M) beta l := by
  have hS : feasible p q (sdMatrix p q) M beta = {v | v ∈ DeltaSD p q M ∧ ∀ j < p, v j = beta j} := by
    ext v
    show (Sat (p + q) (sdMatrix p q) M v ∧ _) ↔ _
    rw [C60_sd]; rfl
  refine exact_of p q beta l _ _ hS (feasible_conv p q _ M beta) ?_ rmax rmin hM hm hne θ
  refine sd_bounded p q hp l _ beta M (fun v hv => hv.2) ?_
  intro v hv t _ ht
  exact ((C60_sd p q M v).1 hv.1) t ht

theorem sd_with_exact (p q : ℕ) (hp : 1 ≤ p) (M : K) (beta l : ℕ → K) (B : List (ℕ → K)) (P : (ℕ → K) → Prop)
    (hB : ∀ v, Sat (p + q) B 0 v ↔ P v) (rmax rmin : Option K)
    (hM : LpMin (feasibleWith p q (sdMatrix p q) M B beta) (fun v => -target p q l v) rmax)
    (hm : LpMin (feasibleWith p q (sdMatrix p q) M B beta) (target p q l) rmin)
    (hne : (IdSet p q {v | v ∈ DeltaSD p q M ∧ P v} beta l).Nonempty) (θ : K) :
    ((bounds (target p q l beta) rmax rmin).1 ≤ θ ∧ θ ≤ (bounds (target p q l beta) rmax rmin).2) ↔
      θ ∈ IdSet p q {v | v ∈ DeltaSD p q M ∧ P v} beta l := by
  have hS : feasibleWith p q (sdMatrix p q) M B beta =
      {v | v ∈ {v | v ∈ DeltaSD p q M ∧ P v} ∧ ∀ j < p, v j = beta j} := by
    ext v
    show ((Sat (p + q) (sdMatrix p q) M v ∧ Sat (p + q) B 0 v) ∧ _) ↔ _
    rw [C60_sd, hB]; rfl
  refine exact_of p q beta l _ _ hS (feasibleWith_conv p q _ M B beta) ?_ rmax rmin hM hm hne θ
  refine sd_bounded p q hp l _ beta M (fun v hv => hv.2) ?_
  intro v hv t _ ht
  exact ((C60_sd p q M v).1 hv.1.1) t ht

/-- C63.  The same with a sign restriction on the bias (both directions). -/
theorem C63_sdb_exact (p q : ℕ) (hp : 1 ≤ p) (M : K) (beta l : ℕ → K) (positive : Bool) (B : List (ℕ → K))
    (hB : signConstraint p q (if positive then "positive" else "negative") = some B) (rmax rmin : Option K)
    (hM : LpMin (feasibleWith p q (sdMatrix p q) M B beta) (fun v => -target p q l v) rmax)
    (hm : LpMin (feasibleWith p q (sdMatrix p q) M B beta) (target p q l) rmin)
    (hne : (IdSet p q {v | v ∈ DeltaSD p q M ∧ ∀ k < q, if positive then 0 ≤ v (p + k) else v (p + k) ≤ 0}
      beta l).Nonempty) (θ : K) :
    ((bounds (target p q l beta) rmax rmin).1 ≤ θ ∧ θ ≤ (bounds (target p q l beta) rmax rmin).2) ↔
      θ ∈ IdSet p q {v | v ∈ DeltaSD p q M ∧ ∀ k < q, if positive then 0 ≤ v (p + k) else v (p + k) ≤ 0} beta l := by
  refine sd_with_exact p q hp M beta l B _ ?_ rmax rmin hM hm hne θ
  intro v
  cases positive
  · obtain ⟨A, hA, h⟩ := (C61_sign p q v).2
    simp only [Bool.false_eq_true, if_false] at hB ⊢
    rw [hA] at hB
    rw [← Option.some.inj hB]; exact h
  · obtain ⟨A, hA, h⟩ := (C61_sign p q v).1
    simp only [if_true] at hB ⊢
    rw [hA] at hB
    rw [← Option.some.inj hB]; exact h

/-- C63.  The same with a monotonicity restriction (both directions). -/
theorem C63_sdm_exact (p q : ℕ) (hp : 1 ≤ p) (M : K) (beta l : ℕ → K) (increasing : Bool) (B : List (ℕ → K))
    (hB : monotonicityConstraint p q (if increasing then "increasing" else "decreasing") false = some B)
    (rmax rmin : Option K)
    (hM : LpMin (feasibleWith p q (sdMatrix p q) M B beta) (fun v => -target p q l v) rmax)
    (hm : LpMin (feasibleWith p q (sdMatrix p q) M B beta) (target p q l) rmin)
    (hne : (IdSet p q {v | v ∈ DeltaSD p q M ∧ if increasing then Increasing p q v else Decreasing p q v} beta l).Nonempty)
    (θ : K) :
    ((bounds (target p q l beta) rmax rmin).1 ≤ θ ∧ θ ≤ (bounds (target p q l beta) rmax rmin).2) ↔
      θ ∈ IdSet p q {v | v ∈ DeltaSD p q M ∧ if increasing then Increasing p q v else Decreasing p q v} beta l := by
  refine sd_with_exact p q hp M beta l B _ ?_ rmax rmin hM hm hne θ
  intro v
  cases increasing
  · obtain ⟨A, hA, h⟩ := (C61_monotonicity p q hp v).2.1
    simp only [Bool.false_eq_true, if_false] at hB ⊢
    rw [hA] at hB
    rw [← Option.some.inj hB]; exact h
  · obtain ⟨A, hA, h⟩ := (C61_monotonicity p q hp v).1
    simp only [if_true] at hB ⊢
    rw [hA] at hB
    rw [← Option.some.inj hB]; exact h

/-- C63.  The true effect is inside: if the coefficients are effect plus admissible violation, the reported interval contains
`l' tau`. -/
theorem C63_sd_contains (p q : ℕ) (hp : 1 ≤ p) (M : K) (τ δ l : ℕ → K) (hδ : δ ∈ DeltaSD p q M) (rmax rmin : Option K)
    (hM : LpMin (feasible p q (sdMatrix p q) M (fun j => if j < p then δ j else δ j + τ (j - p)))
      (fun v => -target p q l v) rmax)
    (hm : LpMin (feasible p q (sdMatrix p q) M (fun j => if j < p then δ j else δ j + τ (j - p))) (target p q l) rmin) :
    (bounds (target p q l (fun j => if j < p then δ j else δ j + τ (j - p))) rmax rmin).1 ≤ ∑ k ∈ range q, l k * τ k ∧
    ∑ k ∈ range q, l k * τ k ≤ (bounds (target p q l (fun j => if j < p then δ j else δ j + τ (j - p))) rmax rmin).2 := by
  have hin : ∑ k ∈ range q, l k * τ k ∈ IdSet p q (DeltaSD p q M) (fun j => if j < p then δ j else δ j + τ (j - p)) l := by
    refine ⟨δ, hδ, fun j hj => by simp [hj], sum_congr rfl fun k _ => ?_⟩
    simp
  exact (C63_sd_exact p q hp M _ l rmax rmin hM hm ⟨_, hin⟩ _).2 hin

/-- C63.  The reported interval grows with the bound `M`, as long as the smaller bound is compatible with the pre-treatment
coefficients. -/
theorem C63_sd_nested (p q : ℕ) (hp : 1 ≤ p) (M M' : K) (hMM : M ≤ M') (beta l : ℕ → K) (rmax rmin rmax' rmin' : Option K)
    (hM : LpMin (feasible p q (sdMatrix p q) M beta) (fun v => -target p q l v) rmax)
    (hm : LpMin (feasible p q (sdMatrix p q) M beta) (target p q l) rmin)
    (hM' : LpMin (feasible p q (sdMatrix p q) M' beta) (fun v => -target p q l v) rmax')
    (hm' : LpMin (feasible p q (sdMatrix p q) M' beta) (target p q l) rmin')
    (hne : (IdSet p q (DeltaSD p q M) beta l).Nonempty) (θ : K)
    (h : (bounds (target p q l beta) rmax rmin).1 ≤ θ ∧ θ ≤ (bounds (target p q l beta) rmax rmin).2) :
    (bounds (target p q l beta) rmax' rmin').1 ≤ θ ∧ θ ≤ (bounds (target p q l beta) rmax' rmin').2 := by
  have sub : ∀ θ ∈ IdSet p q (DeltaSD p q M) beta l, θ ∈ IdSet p q (DeltaSD p q M') beta l := by
    rintro θ ⟨δ, hd, hp', e⟩
    exact ⟨δ, fun r hr => (hd r hr).trans hMM, hp', e⟩
  have := (C63_sd_exact p q hp M beta l rmax rmin hM hm hne θ).1 h
  exact (C63_sd_exact p q hp M' beta l rmax' rmin' hM' hm' ⟨θ, sub θ this⟩ θ).2 (sub θ this)

/-- C63 (violated).  When the restriction contradicts the pre-treatment coefficients the identified set is empty, but the code
reports the point estimate: for any system of constraints. -/
theorem C63_infeasible_violated (p q : ℕ) (A : List (ℕ → K)) (d : K) (beta l : ℕ → K) (rmax rmin : Option K)
    (hM : LpMin (feasible p q A d beta) (fun v => -target p q l v) rmax)
    (hm : LpMin (feasible p q A d beta) (target p q l) rmin) (he : feasible p q A d beta = ∅) :
    bounds (target p q l beta) rmax rmin = (target p q l beta, target p q l beta) := by
  cases rmin with
  | some m =>
    obtain ⟨⟨v, hv, _⟩, _⟩ := hm
    rw [he] at hv
    exact absurd hv (Set.notMem_empty _)
  | none => cases rmax <;> rfl

/-! ### Unions of intervals -/

theorem hull_foldl (l : List (K × K)) (b : K × K) :
    (∀ x ∈ b :: l, (l.foldl (fun a c => (min a.1 c.1, max a.2 c.2)) b).1 ≤ x.1 ∧
      x.2 ≤ (l.foldl (fun a c => (min a.1 c.1, max a.2 c.2)) b).2) ∧
    (∃ x ∈ b :: l, x.1 = (l.foldl (fun a c => (min a.1 c.1, max a.2 c.2)) b).1) ∧
    ∃ x ∈ b :: l, x.2 = (l.foldl (fun a c => (min a.1 c.1, max a.2 c.2)) b).2 := by
  induction l generalizing b with
  | nil =>
    refine ⟨?_, ⟨b, by simp, rfl⟩, ⟨b, by simp, rfl⟩⟩
    intro x hx
    rw [List.mem_singleton] at hx
    subst hx
    exact ⟨le_rfl, le_rfl⟩
  | cons c l ih =>
    rw [List.foldl_cons]
    obtain ⟨h1, ⟨x, hx, ex⟩, ⟨y, hy, ey⟩⟩ := ih (min b.1 c.1, max b.2 c.2)
    have h0 := h1 _ (List.mem_cons_self ..)
    refine ⟨?_, ?_, ?_⟩
    · intro z hz
      simp only [List.mem_cons] at hz
      rcases hz with rfl | rfl | hz
      · exact ⟨h0.1.trans (min_le_left _ _), (le_max_left _ _).trans h0.2⟩
      · exact ⟨h0.1.trans (min_le_right _ _), (le_max_right _ _).trans h0.2⟩
      · exact h1 z (List.mem_cons_of_mem _ hz)
    · rw [← ex]
      rcases List.mem_cons.1 hx with rfl | hx
      · rcases min_choice b.1 c.1 with h | h
        · exact ⟨b, by simp, h.symm⟩
        · exact ⟨c, by simp, h.symm⟩
      · exact ⟨x, by simp [hx], rfl⟩
    · rw [← ey]
      rcases List.mem_cons.1 hy with rfl | hy
      · rcases max_choice b.2 c.2 with h | h
        · exact ⟨b, by simp, h.symm⟩
        · exact ⟨c, by simp, h.symm⟩
      · exact ⟨y, by simp [hy], rfl⟩

theorem unionSet_spec (obs : K) (ss : List ℤ) (rmax rmin : ℤ → Bool → Option K) (r : K × K)
    (h : unionSet obs ss rmax rmin = some r) :
    (∀ s ∈ ss, ∀ b, r.1 ≤ (bounds obs (rmax s b) (rmin s b)).1 ∧ (bounds obs (rmax s b) (rmin s b)).2 ≤ r.2) ∧
    (∃ s ∈ ss, ∃ b, (bounds obs (rmax s b) (rmin s b)).1 = r.1) ∧
    ∃ s ∈ ss, ∃ b, (bounds obs (rmax s b) (rmin s b)).2 = r.2 := by
  unfold unionSet at h
  set L := ss.flatMap fun s => [bounds obs (rmax s true) (rmin s true), bounds obs (rmax s false) (rmin s false)] with hL
  have mem : ∀ x, x ∈ L ↔ ∃ s ∈ ss, ∃ b, x = bounds obs (rmax s b) (rmin s b) := by
    intro x
    rw [hL]
    simp only [List.mem_flatMap, List.mem_cons, List.not_mem_nil, or_false]
    constructor
    · rintro ⟨s, hs, rfl | rfl⟩
      · exact ⟨s, hs, true, rfl⟩
      · exact ⟨s, hs, false, rfl⟩
    · rintro ⟨s, hs, b, rfl⟩
      refine ⟨s, hs, ?_⟩
      cases b
      · exact Or.inr rfl
      · exact Or.inl rfl
  revert h
  cases hl : L with
  | nil => intro h; exact absurd h (by simp [hull])
  | cons b l =>
    intro h
    have hr : l.foldl (fun a c => (min a.1 c.1, max a.2 c.2)) b = r := Option.some.inj h
    obtain ⟨h1, ⟨x, hx, ex⟩, ⟨y, hy, ey⟩⟩ := hull_foldl l b
    rw [hr] at h1 ex ey
    rw [← hl] at h1 hx hy
    refine ⟨fun s hs b => h1 _ ((mem _).2 ⟨s, hs, b, rfl⟩), ?_, ?_⟩
    · obtain ⟨s, hs, b, rfl⟩ := (mem _).1 hx
      exact ⟨s, hs, b, ex⟩
    · obtain ⟨s, hs, b, rfl⟩ := (mem _).1 hy
      exact ⟨s, hs, b, ey⟩

theorem unionSet_some (obs : K) (ss : List ℤ) (hss : ss ≠ []) (rmax rmin : ℤ → Bool → Option K) :
    ∃ r, unionSet obs ss rmax rmin = some r := by
  cases ss with
  | nil => exact absurd rfl hss
  | cons s ss => exact ⟨_, rfl⟩

end Verif.Honest
