import Verif.Cont.Frame
import Verif.Cont.Dose

set_option linter.unusedSectionVars false
set_option linter.unusedSimpArgs false

/-!
# Continuous treatment: admissible cohorts and doses (C70), weights and influence of the overall effect (C101, C102)
-/

namespace Verif.Cont

open Verif.Panel Verif.Prep

variable {ι K : Type*}

/-- Number of observed periods strictly before the (anticipation-adjusted) treatment of cohort `g`. -/
def prePeriods (ps : List ℤ) (g a : ℤ) : ℕ := ps.countP fun s => decide (s < g - a)

/-- The periods `first, …, first + T − 1`. -/
def consecutive (first : ℤ) (T : ℕ) : List ℤ := (List.range T).map fun i : ℕ => first + (i : ℤ)

lemma prePeriods_consecutive (first : ℤ) (T : ℕ) (g a : ℤ) :
    prePeriods (consecutive first T) g a = min T (g - a - first).toNat := by
  unfold prePeriods consecutive
  induction T with
  | zero => simp
  | succ T ih =>
    rw [List.range_succ, List.map_append, List.countP_append, ih]
    simp only [List.map_cons, List.map_nil, List.countP_cons, List.countP_nil, Nat.zero_add, decide_eq_true_eq]
    split_ifs with h <;> omega

/-- **C70 (required pre-periods).** With consecutive periods, the filter keeps a row exactly when its cohort has at least the
required number of observed periods before its anticipation-adjusted treatment; never-treated rows are kept. -/
theorem C70_pre_periods (req : ℕ) (a first : ℤ) (T : ℕ) (df : List (Rec ι K)) (hT : 0 < T) (hreq : req ≤ T)
    (hp : periodsOf df = consecutive first T) (r : Rec ι K) (hr : r ∈ df) (h0 : 0 ≤ a) :
    (r ∈ earlyGroups (req : ℤ) a df ↔ ∀ g : ℤ, cohort r = (g : WithTop ℤ) →
      req ≤ prePeriods (periodsOf df) g a ∧ first + a ≤ g) := by
  have hhead : (periodsOf df).head? = some first := by
    rw [hp]
    unfold consecutive
    obtain ⟨n, rfl⟩ := Nat.exists_eq_succ_of_ne_zero (Nat.pos_iff_ne_zero.1 hT)
    rw [List.range_succ_eq_map]
    simp
  unfold earlyGroups
  rw [hhead]
  simp only [List.mem_filter, hr, true_and]
  unfold lateEnough
  rw [hp]
  cases hc : cohort r with
  | top => simp
  | coe g =>
    simp only [decide_eq_true_eq, WithTop.coe_le_coe, WithTop.coe_inj]
    constructor
    · rintro h g' rfl
      rw [prePeriods_consecutive]
      omega
    · intro h
      obtain ⟨h1, h2⟩ := h g rfl
      rw [prePeriods_consecutive] at h1
      omega

example : prePeriods (consecutive 2001 4) 2004 1 = 2 := by decide

/-- **C70 (groups to drop).** On periods `1, …, T` the second cohort filter removes exactly the cohorts with fewer than the
required number of observed periods before their anticipation-adjusted treatment; it therefore removes nothing the first filter
kept. -/
theorem C70_drop_groups (req : ℕ) (a : ℤ) (T : ℕ) (df : List (Rec ι K)) (hreq : req ≤ T) (h0 : 0 ≤ a)
    (r : Rec ι K) (hr : r ∈ df) (g : ℤ) (hg : 1 ≤ g) (hc : cohort r = (g : WithTop ℤ)) :
    r ∈ dropGroups (req : ℤ) a df ↔ req ≤ prePeriods (consecutive 1 T) g a ∧ 1 + a ≤ g := by
  unfold dropGroups
  rw [prePeriods_consecutive]
  simp only [List.mem_filter, hr, true_and, hc, Bool.not_eq_true', Bool.and_eq_false_iff, decide_eq_false_iff_not]
  rw [show ((1 : WithTop ℤ)) = ((1 : ℤ) : WithTop ℤ) from rfl]
  simp only [WithTop.coe_le_coe]
  omega

example : (dropGroups 1 0 ([⟨1, 1, ((2 : ℤ), (0, 0))⟩, ⟨2, 1, ((1 : ℤ), (0, 0))⟩] : List (Rec ℕ ℚ))).length = 1 := by
  decide +kernel

/-- **C70 (cohorts).** On periods `1, …, T` a cohort is estimated exactly when it occurs, is one of the periods and has enough
observed periods before its anticipation-adjusted treatment: the required number with a varying base, one with a universal
base. -/
theorem C70_cohorts (univ : Bool) (req : ℕ) (a : ℤ) (T : ℕ) (gs : List ℤ) (hreq : req < T) (hT : 2 ≤ T) (h0 : 0 ≤ a) (g : ℤ) :
    g ∈ gList univ a (tList univ req (consecutive 1 T)) gs ↔
      g ∈ gs ∧ g ∈ consecutive 1 T ∧ 1 + a ≤ g ∧ (if univ then 1 else req) ≤ prePeriods (consecutive 1 T) g a := by
  rw [prePeriods_consecutive]
  have hm : ∀ n : ℕ, ∀ f : ℤ, ∀ x : ℤ, x ∈ consecutive f n ↔ f ≤ x ∧ x < f + n := by
    intro n f x
    unfold consecutive
    rw [List.mem_map]
    constructor
    · rintro ⟨i, hi, rfl⟩
      have := List.mem_range.1 hi
      omega
    · rintro ⟨h1, h2⟩
      exact ⟨(x - f).toNat, List.mem_range.2 (by omega), by omega⟩
  have hget : ∀ n : ℕ, ∀ f : ℤ, ∀ k : ℕ, k < n → (consecutive f n)[k]? = some (f + k) := by
    intro n f k hk
    unfold consecutive
    simp [hk]
  unfold gList
  simp only [List.mem_filter, Bool.and_eq_true, decide_eq_true_eq, Option.any_eq_true]
  cases univ with
  | true =>
    unfold tList minT
    simp only [if_true]
    rw [hget T 1 1 (by omega)]
    simp only [Option.some.injEq, exists_eq_left', hm]
    constructor
    · rintro ⟨h1, h2, h3⟩; refine ⟨h1, h2, ?_, ?_⟩ <;> omega
    · rintro ⟨h1, h2, h3, h4⟩; refine ⟨h1, h2, ?_⟩; omega
  | false =>
    unfold tList minT
    simp only [Bool.false_eq_true, if_false]
    have hd : (consecutive 1 T).drop req = consecutive (1 + req) (T - req) := by
      unfold consecutive
      apply List.ext_getElem (by simp)
      intro i h1 h2
      simp
      omega
    rw [hd, List.head?_eq_getElem?, hget _ _ 0 (by omega)]
    simp only [Option.some.injEq, exists_eq_left', hm]
    constructor
    · rintro ⟨h1, h2, h3⟩; refine ⟨h1, ?_, ?_, ?_⟩ <;> omega
    · rintro ⟨h1, h2, h3, h4⟩; refine ⟨h1, ?_, ?_⟩ <;> omega

example : gList true 0 (tList true 1 (consecutive 1 4)) [1, 2, 3, 7] = [2, 3] ∧
    gList false 1 (tList false 1 (consecutive 1 4)) [1, 2, 3, 7] = [3] := by decide

/-- **C70 (dose).** After the dose check, a row of a treated unit is kept exactly when it precedes treatment or carries a dose,
and the rows of never-treated units are all kept with dose zero. -/
theorem C70_dose [Zero K] [DecidableEq K] (df : List (Rec ι K)) (r : Rec ι K) :
    r ∈ validateDose df ↔ (∃ g : ℤ, cohort r = (g : WithTop ℤ) ∧ r ∈ df ∧ (r.t < g ∨ dose r ≠ 0)) ∨
      (cohort r = ⊤ ∧ dose r = 0 ∧ ∃ q ∈ df, q.id = r.id ∧ q.t = r.t ∧ outcome q = outcome r ∧ cohort q = ⊤) := by
  unfold validateDose
  have hset : ∀ q : Rec ι K, cohort (setDose q 0) = cohort q := fun q => rfl
  have hz : ∀ q : Rec ι K, cohort (zeroNever q) = cohort q := by
    intro q; unfold zeroNever; split_ifs <;> rfl
  rw [List.mem_filter, List.mem_map]
  constructor
  · rintro ⟨⟨q, hq, rfl⟩, hv⟩
    cases hc : cohort q with
    | top =>
      right
      refine ⟨by rw [hz, hc], ?_, q, hq, ?_⟩
      · unfold zeroNever; rw [if_pos hc]; rfl
      · unfold zeroNever; rw [if_pos hc]; exact ⟨rfl, rfl, rfl, hc⟩
    | coe g =>
      left
      have e : zeroNever q = q := by unfold zeroNever; rw [if_neg (by rw [hc]; exact WithTop.coe_ne_top)]
      rw [e] at hv ⊢
      refine ⟨g, hc, hq, ?_⟩
      unfold invalidDose at hv
      rw [hc] at hv
      simp only [ne_eq, WithTop.coe_ne_top, not_false_eq_true, decide_true, Bool.true_and, WithTop.coe_le_coe,
        Bool.not_eq_true', Bool.and_eq_false_iff, decide_eq_false_iff_not, not_le] at hv
      exact hv
  · rintro (⟨g, hc, hq, hv⟩ | ⟨hc, hd, q, hq, h1, h2, h3, h4⟩)
    · have e : zeroNever r = r := by unfold zeroNever; rw [if_neg (by rw [hc]; exact WithTop.coe_ne_top)]
      refine ⟨⟨r, hq, e⟩, ?_⟩
      unfold invalidDose
      rw [hc]
      simp only [ne_eq, WithTop.coe_ne_top, not_false_eq_true, decide_true, Bool.true_and, WithTop.coe_le_coe,
        Bool.not_eq_true', Bool.and_eq_false_iff, decide_eq_false_iff_not, not_le]
      exact hv
    · refine ⟨⟨q, hq, ?_⟩, ?_⟩
      · unfold zeroNever
        rw [if_pos h4]
        obtain ⟨i, t, G, y, d⟩ := r
        obtain ⟨i', t', G', y', d'⟩ := q
        simp only [outcome, dose, cohort, setDose] at *
        subst h1; subst h2; subst h3; subst hd
        rw [hc, h4]
      · unfold invalidDose
        rw [hc]; simp

example : validateDose ([⟨1, 1, ((2 : ℤ), (5, 0))⟩, ⟨1, 2, ((2 : ℤ), (6, 0))⟩, ⟨2, 2, ((2 : ℤ), (6, 3))⟩,
    ⟨3, 2, (⊤, (7, 9))⟩] : List (Rec ℕ ℚ)) = [⟨1, 1, ((2 : ℤ), (5, 0))⟩, ⟨2, 2, ((2 : ℤ), (6, 3))⟩, ⟨3, 2, (⊤, (7, 0))⟩] := by
  decide +kernel

/-! ### C102 for any cells -/

/-- **C102 (total).** Whenever overall weights are returned — for any cells, horizon and shares — there is one per cell and they
sum to one. -/
theorem C102_sum_one [Field K] [LinearOrder K] (maxE : Option ℤ) (share : ℤ → K) (cells : List (ℤ × ℤ)) (ws : List K)
    (h : overallWeights maxE share cells = some ws) : ws.length = cells.length ∧ ws.sum = 1 := by
  unfold overallWeights at h
  simp only at h
  split_ifs at h with h1 h2
  · cases h
    exact ⟨by simp [rawWeights], h1⟩
  · cases h
    refine ⟨by simp [rawWeights], ?_⟩
    have : ∀ l : List K, ∀ c : K, (l.map fun v => v / c).sum = l.sum / c := by
      intro l c
      induction l with
      | nil => simp
      | cons a t ih => simp only [List.map_cons, List.sum_cons, ih, add_div]
    rw [this]
    exact div_self (ne_of_gt h2)

/-- A horizon of zero periods leaves two cells of three; their weights still sum to one. -/
example : overallWeights (some 0) (fun g => if g = 2 then (1 : ℚ) / 4 else 1 / 2) [(2, 2), (2, 3), (3, 3)] =
    some [1 / 3, 0, 2 / 3] := by decide +kernel

/-! ### C101: combination of cells -/

/-- **C101 (fixed weights).** If each cell's column is the influence function of the cell's estimate, the two reported influence
functions are the influence function of the weighted sum of the estimates (with the weights held fixed). -/
theorem C101_fixed_weights (ws : List ℝ) (cells : List ((ℝ → ℝ) × (ι → ℝ))) (i : ι)
    (hd : ∀ c ∈ cells, HasDerivAt c.1 (c.2 i) 0) :
    HasDerivAt (fun t => nansumOverall ws (cells.map fun c => some (c.1 t)))
        ((doseInfluences ws (cells.map Prod.snd)).1 i) 0 ∧
      HasDerivAt (fun t => nansumOverall ws (cells.map fun c => some (c.1 t)))
        ((doseInfluences ws (cells.map Prod.snd)).2 i) 0 := by
  have key : HasDerivAt (fun t => nansumOverall ws (cells.map fun c => some (c.1 t)))
      (combineIF ws (cells.map Prod.snd) i) 0 := by
    unfold nansumOverall combineIF
    induction cells generalizing ws with
    | nil => simpa using hasDerivAt_const (0 : ℝ) (0 : ℝ)
    | cons c t ih =>
      cases ws with
      | nil => simpa using hasDerivAt_const (0 : ℝ) (0 : ℝ)
      | cons w ws =>
        simp only [List.map_cons, List.zip_cons_cons, List.sum_cons, Option.getD_some]
        exact ((hd c (by simp)).const_mul w).add (ih ws fun c hc => hd c (by simp [hc]))
  exact ⟨key, key⟩

/-- Two linear cells. -/
example : HasDerivAt (fun t : ℝ => nansumOverall [1 / 4, 3 / 4] (([((fun t => 2 * t), fun _ : Unit => (2 : ℝ)),
    ((fun t => 5 * t), fun _ => 5)] : List ((ℝ → ℝ) × (Unit → ℝ))).map fun c => some (c.1 t)))
    ((doseInfluences [1 / 4, 3 / 4] [fun _ : Unit => (2 : ℝ), fun _ => 5]).1 ()) 0 := by
  refine (C101_fixed_weights [1 / 4, 3 / 4] [((fun t => 2 * t), fun _ : Unit => (2 : ℝ)), ((fun t => 5 * t), fun _ => 5)] ()
    ?_).1
  intro c hc
  simp only [List.mem_cons, List.not_mem_nil, or_false] at hc
  rcases hc with rfl | rfl
  · simpa using (hasDerivAt_id (0 : ℝ)).const_mul 2
  · simpa using (hasDerivAt_id (0 : ℝ)).const_mul 5

end Verif.Cont
