import Verif.Honest.Trunc
import Verif.Honest.Compiled
import Mathlib.Tactic.Linarith
import Mathlib.Tactic.Ring
import Mathlib.Tactic.FieldSimp

/-!
# C156: the conditioning event of the conditional tests

The truncation points bracket the statistic, and they describe exactly the data on which the same inequality attains the maximum.
-/

set_option linter.unusedSectionVars false
set_option linter.unusedSimpArgs false

namespace Verif.Honest

open Finset

/-! ## Specification -/

/-- `B` is the first position of the maximum of `f` on `0, ..., m - 1`. -/
def IsFirstMax (m : ℕ) (f : ℕ → ℝ) (B : ℕ) : Prop := B < m ∧ ∀ i < m, f i ≤ f B ∧ (i < B → f i < f B)

/-- Strictly inside the truncation interval. -/
def Bnd.inLow (x : ℝ) : Bnd ℝ → Prop
  | Bnd.infinite => True
  | Bnd.nan => False
  | Bnd.fin l => l < x

/-- Strictly inside the truncation interval. -/
def Bnd.inUp (x : ℝ) : Bnd ℝ → Prop
  | Bnd.infinite => True
  | Bnd.nan => False
  | Bnd.fin u => x < u

/-- The open truncation interval. -/
def truncOpen (lo up : Bnd ℝ) : Set ℝ := {x | lo.inLow x ∧ up.inUp x}

/-- No coefficient is non-zero but below the threshold. -/
def Resolved (n m : ℕ) (sigma At : ℕ → ℕ → ℝ) (B : ℕ) : Prop :=
  ∀ i < m, (∑ j ∈ range n, (At i j - At B j) * (sigmaEta n (At B) sigma j / etaSigmaEta n (At B) sigma)) = 0 ∨
    arpTol < |∑ j ∈ range n, (At i j - At B j) * (sigmaEta n (At B) sigma j / etaSigmaEta n (At B) sigma)|

/-! ## Lemmas -/

theorem arpTol_pos : 0 < arpTol := by unfold arpTol; positivity

theorem argmax_spec (m : ℕ) (f : ℕ → ℝ) :
    (0 < m → argmaxFirst m f < m) ∧ ∀ i < m, f i ≤ f (argmaxFirst m f) ∧ (i < argmaxFirst m f → f i < f (argmaxFirst m f)) := by
  unfold argmaxFirst
  induction m with
  | zero => exact ⟨fun h => absurd h (lt_irrefl _), fun i hi => absurd hi (Nat.not_lt_zero _)⟩
  | succ m ih =>
    rw [List.range_succ, List.foldl_append, List.foldl_cons, List.foldl_nil]
    set b := (List.range m).foldl (fun b i => if f b < f i then i else b) 0 with hb
    by_cases h : f b < f m
    · rw [if_pos h]
      refine ⟨fun _ => Nat.lt_succ_self m, fun i hi => ?_⟩
      rcases Nat.lt_succ_iff_lt_or_eq.1 hi with hi | rfl
      · have := (ih.2 i hi).1
        exact ⟨by linarith, fun _ => by linarith⟩
      · exact ⟨le_rfl, fun h => absurd h (lt_irrefl _)⟩
    · rw [if_neg h]
      rcases Nat.eq_zero_or_pos m with h0 | h0
      · subst h0
        have hb0 : b = 0 := by rw [hb]; rfl
        rw [hb0]
        refine ⟨fun _ => Nat.one_pos, fun i hi => ?_⟩
        have : i = 0 := by omega
        subst this
        exact ⟨le_rfl, fun h => absurd h (lt_irrefl _)⟩
      · refine ⟨fun _ => (ih.1 h0).trans (Nat.lt_succ_self m), fun i hi => ?_⟩
        rcases Nat.lt_succ_iff_lt_or_eq.1 hi with hi | rfl
        · exact ih.2 i hi
        · exact ⟨not_lt.1 h, fun h' => absurd (h'.trans (ih.1 h0)) (lt_irrefl _)⟩

theorem argmax_first (m : ℕ) (hm : 0 < m) (f : ℕ → ℝ) : IsFirstMax m f (argmaxFirst m f) :=
  ⟨(argmax_spec m f).1 hm, (argmax_spec m f).2⟩

theorem firstMax_unique (m : ℕ) (f : ℕ → ℝ) (B B' : ℕ) (h : IsFirstMax m f B) (h' : IsFirstMax m f B') : B = B' := by
  rcases lt_trichotomy B B' with hlt | he | hlt
  · have h1 := (h'.2 B h.1).2 hlt
    have h2 := (h.2 B' h'.1).1
    exact absurd h1 (not_lt.2 h2)
  · exact he
  · have h1 := (h.2 B' h'.1).2 hlt
    have h2 := (h'.2 B h.1).1
    exact absurd h1 (not_lt.2 h2)

theorem argmax_iff (m : ℕ) (hm : 0 < m) (f : ℕ → ℝ) (B : ℕ) : argmaxFirst m f = B ↔ IsFirstMax m f B :=
  ⟨fun h => h ▸ argmax_first m hm f, fun h => firstMax_unique m f _ _ (argmax_first m hm f) h⟩

/-- Data decomposed into the residual and the statistic. -/
theorem decompose (n : ℕ) (sigma : ℕ → ℕ → ℝ) (g a y : ℕ → ℝ) :
    dotN n a y = dotN n a (residual n sigma g y) +
      (∑ j ∈ range n, a j * (sigmaEta n g sigma j / etaSigmaEta n g sigma)) * dotN n g y := by
  unfold residual dotN
  rw [sum_mul, ← sum_add_distrib]
  exact sum_congr rfl fun j _ => by ring

/-- The inequality `i` against inequality `B`, in terms of the statistic and the residual. -/
noncomputable def slackRhs (n : ℕ) (At : ℕ → ℕ → ℝ) (dt : ℕ → ℝ) (B : ℕ) (z : ℕ → ℝ) (i : ℕ) : ℝ :=
  dt i - dt B - ∑ j ∈ range n, (At i j - At B j) * z j

/-- The coefficient `(A_bar c)_i`. -/
noncomputable def slackCoef (n : ℕ) (sigma At : ℕ → ℕ → ℝ) (B i : ℕ) : ℝ :=
  ∑ j ∈ range n, (At i j - At B j) * (sigmaEta n (At B) sigma j / etaSigmaEta n (At B) sigma)

theorem moment_diff (n : ℕ) (sigma At : ℕ → ℕ → ℝ) (dt y : ℕ → ℝ) (B i : ℕ) :
    moment n At dt y i - moment n At dt y B =
      slackCoef n sigma At B i * dotN n (At B) y - slackRhs n At dt B (residual n sigma (At B) y) i := by
  have h := decompose n sigma (At B) (fun j => At i j - At B j) y
  have h2 : dotN n (fun j => At i j - At B j) y = dotN n (At i) y - dotN n (At B) y := by
    unfold dotN
    rw [← sum_sub_distrib]
    exact sum_congr rfl fun j _ => by ring
  unfold moment slackRhs slackCoef
  have h3 : dotN n (fun j => At i j - At B j) (residual n sigma (At B) y) =
    ∑ j ∈ range n, (At i j - At B j) * residual n sigma (At B) y j := rfl
  rw [h2, h3] at h
  linarith

/-- The selection event as a condition on the statistic. -/
def Sel (m B : ℕ) (Ac rhs : ℕ → ℝ) (x : ℝ) : Prop := ∀ i < m, Ac i * x ≤ rhs i ∧ (i < B → Ac i * x < rhs i)

theorem firstMax_sel (n m : ℕ) (sigma At : ℕ → ℕ → ℝ) (dt y : ℕ → ℝ) (B : ℕ) (hB : B < m) :
    IsFirstMax m (moment n At dt y) B ↔
      Sel m B (slackCoef n sigma At B) (slackRhs n At dt B (residual n sigma (At B) y)) (dotN n (At B) y) := by
  unfold IsFirstMax Sel
  constructor
  · rintro ⟨_, h⟩ i hi
    have := moment_diff n sigma At dt y B i
    exact ⟨by have := (h i hi).1; linarith, fun hlt => by have := (h i hi).2 hlt; linarith⟩
  · intro h
    refine ⟨hB, fun i hi => ?_⟩
    have := moment_diff n sigma At dt y B i
    exact ⟨by have := (h i hi).1; linarith, fun hlt => by have := (h i hi).2 hlt; linarith⟩

theorem foldl_max_props (l : List ℝ) (x : ℝ) : x ≤ l.foldl max x ∧ (∀ y ∈ l, y ≤ l.foldl max x) ∧ (l.foldl max x = x ∨ l.foldl max x ∈ l) := by
  induction l generalizing x with
  | nil => simp
  | cons a l ih =>
    rw [List.foldl_cons]
    obtain ⟨h1, h2, h3⟩ := ih (max x a)
    refine ⟨(le_max_left x a).trans h1, ?_, ?_⟩
    · intro y hy
      rcases List.mem_cons.1 hy with rfl | hy
      · exact (le_max_right _ _).trans h1
      · exact h2 y hy
    · rcases h3 with h3 | h3
      · rw [h3]
        rcases max_choice x a with h | h
        · exact Or.inl h
        · rw [h]; exact Or.inr (List.mem_cons_self)
      · exact Or.inr (List.mem_cons_of_mem _ h3)

theorem foldl_min_props (l : List ℝ) (x : ℝ) : l.foldl min x ≤ x ∧ (∀ y ∈ l, l.foldl min x ≤ y) ∧ (l.foldl min x = x ∨ l.foldl min x ∈ l) := by
  induction l generalizing x with
  | nil => simp
  | cons a l ih =>
    rw [List.foldl_cons]
    obtain ⟨h1, h2, h3⟩ := ih (min x a)
    refine ⟨h1.trans (min_le_left x a), ?_, ?_⟩
    · intro y hy
      rcases List.mem_cons.1 hy with rfl | hy
      · exact h1.trans (min_le_right _ _)
      · exact h2 y hy
    · rcases h3 with h3 | h3
      · rw [h3]
        rcases min_choice x a with h | h
        · exact Or.inl h
        · rw [h]; exact Or.inr (List.mem_cons_self)
      · exact Or.inr (List.mem_cons_of_mem _ h3)

theorem accum_max_low (l : List ℝ) (x : ℝ) : (accum max l Bnd.infinite).okLow x ↔ ∀ y ∈ l, y ≤ x := by
  cases l with
  | nil => simp [accum, Bnd.okLow]
  | cons a l =>
    show (accum max l (Bnd.fin a)).okLow x ↔ _
    rw [accum_fin]
    show l.foldl max a ≤ x ↔ _
    obtain ⟨h1, h2, h3⟩ := foldl_max_props l a
    constructor
    · intro h y hy
      rcases List.mem_cons.1 hy with rfl | hy
      · exact h1.trans h
      · exact (h2 y hy).trans h
    · intro h
      rcases h3 with h3 | h3
      · rw [h3]; exact h a List.mem_cons_self
      · exact h _ (List.mem_cons_of_mem _ h3)

theorem accum_max_in (l : List ℝ) (x : ℝ) : (accum max l Bnd.infinite).inLow x ↔ ∀ y ∈ l, y < x := by
  cases l with
  | nil => simp [accum, Bnd.inLow]
  | cons a l =>
    show (accum max l (Bnd.fin a)).inLow x ↔ _
    rw [accum_fin]
    show l.foldl max a < x ↔ _
    obtain ⟨h1, h2, h3⟩ := foldl_max_props l a
    constructor
    · intro h y hy
      rcases List.mem_cons.1 hy with rfl | hy
      · exact h1.trans_lt h
      · exact (h2 y hy).trans_lt h
    · intro h
      rcases h3 with h3 | h3
      · rw [h3]; exact h a List.mem_cons_self
      · exact h _ (List.mem_cons_of_mem _ h3)

theorem accum_min_up (l : List ℝ) (x : ℝ) : (accum min l Bnd.infinite).okUp x ↔ ∀ y ∈ l, x ≤ y := by
  cases l with
  | nil => simp [accum, Bnd.okUp]
  | cons a l =>
    show (accum min l (Bnd.fin a)).okUp x ↔ _
    rw [accum_fin]
    show x ≤ l.foldl min a ↔ _
    obtain ⟨h1, h2, h3⟩ := foldl_min_props l a
    constructor
    · intro h y hy
      rcases List.mem_cons.1 hy with rfl | hy
      · exact h.trans h1
      · exact h.trans (h2 y hy)
    · intro h
      rcases h3 with h3 | h3
      · rw [h3]; exact h a List.mem_cons_self
      · exact h _ (List.mem_cons_of_mem _ h3)

theorem accum_min_in (l : List ℝ) (x : ℝ) : (accum min l Bnd.infinite).inUp x ↔ ∀ y ∈ l, x < y := by
  cases l with
  | nil => simp [accum, Bnd.inUp]
  | cons a l =>
    show (accum min l (Bnd.fin a)).inUp x ↔ _
    rw [accum_fin]
    show x < l.foldl min a ↔ _
    obtain ⟨h1, h2, h3⟩ := foldl_min_props l a
    constructor
    · intro h y hy
      rcases List.mem_cons.1 hy with rfl | hy
      · exact h.trans_le h1
      · exact h.trans_le (h2 y hy)
    · intro h
      rcases h3 with h3 | h3
      · rw [h3]; exact h a List.mem_cons_self
      · exact h _ (List.mem_cons_of_mem _ h3)

theorem accum_not_nan (op : ℝ → ℝ → ℝ) (l : List ℝ) : accum op l Bnd.infinite ≠ Bnd.nan := by
  cases l with
  | nil => simp [accum]
  | cons a l =>
    show accum op l (Bnd.fin a) ≠ _
    rw [accum_fin]
    simp

/-- The rows with a negative (positive) resolved coefficient, as in the compiled loop. -/
noncomputable def negRows (m : ℕ) (Ac : ℕ → ℝ) : List ℕ :=
  (List.range m).filter fun i => decide (arpTol < |Ac i|) && decide (Ac i < 0)

/-- See `negRows`. -/
noncomputable def posRows (m : ℕ) (Ac : ℕ → ℝ) : List ℕ :=
  (List.range m).filter fun i => decide (arpTol < |Ac i|) && decide (¬ Ac i < 0)

/-- The truncation points of the compiled loop. -/
noncomputable def loOf (m : ℕ) (Ac rhs : ℕ → ℝ) : Bnd ℝ := accum max ((negRows m Ac).map fun i => rhs i / Ac i) Bnd.infinite

/-- See `loOf`. -/
noncomputable def upOf (m : ℕ) (Ac rhs : ℕ → ℝ) : Bnd ℝ := accum min ((posRows m Ac).map fun i => rhs i / Ac i) Bnd.infinite

theorem vBounds_eq (nb : Bool) (n m : ℕ) (y : ℕ → ℝ) (sigma At : ℕ → ℕ → ℝ) (dt : ℕ → ℝ) (B : ℕ)
    (hv : arpTol ≤ |etaSigmaEta n (At B) sigma|) (hr : Resolved n m sigma At B) :
    vBounds nb n m y sigma At dt B =
      some (loOf m (slackCoef n sigma At B) (slackRhs n At dt B (residual n sigma (At B) y)),
        upOf m (slackCoef n sigma At B) (slackRhs n At dt B (residual n sigma (At B) y))) := by
  have e : computeBoundsNb arpTol n m (At B) sigma (fun i j => At i j - At B j) (fun i => dt i - dt B)
      (residual n sigma (At B) y) = some (loOf m (slackCoef n sigma At B) (slackRhs n At dt B (residual n sigma (At B) y)),
        upOf m (slackCoef n sigma At B) (slackRhs n At dt B (residual n sigma (At B) y))) := by
    unfold computeBoundsNb boundsNb
    rw [boundsNb_loop]
    rfl
  unfold vBounds
  cases nb with
  | true => rw [if_pos rfl, e]
  | false =>
    rw [if_neg (by simp), ← C64_compute_bounds arpTol arpTol_pos.le n m _ _ _ _ _ hv hr, e]

theorem sel_trunc (m B : ℕ) (Ac rhs : ℕ → ℝ) (x : ℝ) (h : Sel m B Ac rhs x) : x ∈ truncSet (loOf m Ac rhs) (upOf m Ac rhs) := by
  refine ⟨?_, ?_⟩
  · unfold loOf
    rw [accum_max_low]
    intro y hy
    obtain ⟨i, hi, rfl⟩ := List.mem_map.1 hy
    unfold negRows at hi
    rw [List.mem_filter, List.mem_range, Bool.and_eq_true, decide_eq_true_eq, decide_eq_true_eq] at hi
    rw [div_le_iff_of_neg hi.2.2]
    have := (h i hi.1).1
    linarith
  · unfold upOf
    rw [accum_min_up]
    intro y hy
    obtain ⟨i, hi, rfl⟩ := List.mem_map.1 hy
    unfold posRows at hi
    rw [List.mem_filter, List.mem_range, Bool.and_eq_true, decide_eq_true_eq, decide_eq_true_eq] at hi
    have hpos : 0 < Ac i := by
      rcases lt_trichotomy (Ac i) 0 with h | h | h
      · exact absurd h hi.2.2
      · rw [h, abs_zero] at hi
        exact absurd (hi.2.1) (not_lt.2 arpTol_pos.le)
      · exact h
    rw [le_div_iff₀ hpos]
    have := (h i hi.1).1
    linarith

theorem open_sel (m B : ℕ) (Ac rhs : ℕ → ℝ) (x x' : ℝ) (hAc : ∀ i < m, Ac i = 0 ∨ arpTol < |Ac i|) (h : Sel m B Ac rhs x)
    (hx' : x' ∈ truncOpen (loOf m Ac rhs) (upOf m Ac rhs)) : Sel m B Ac rhs x' := by
  obtain ⟨h1, h2⟩ := hx'
  unfold loOf at h1
  unfold upOf at h2
  rw [accum_max_in] at h1
  rw [accum_min_in] at h2
  intro i hi
  rcases hAc i hi with h0 | h0
  · have := h i hi
    rw [h0] at this ⊢
    simpa using this
  · have key : Ac i * x' < rhs i := by
      by_cases hneg : Ac i < 0
      · have := h1 (rhs i / Ac i) (List.mem_map.2 ⟨i, by
          unfold negRows
          rw [List.mem_filter, List.mem_range, Bool.and_eq_true, decide_eq_true_eq, decide_eq_true_eq]
          exact ⟨hi, h0, hneg⟩, rfl⟩)
        rw [div_lt_iff_of_neg hneg] at this
        linarith
      · have hpos : 0 < Ac i := by
          rcases lt_trichotomy (Ac i) 0 with h | h | h
          · exact absurd h hneg
          · rw [h, abs_zero] at h0
            exact absurd h0 (not_lt.2 arpTol_pos.le)
          · exact h
        have := h2 (rhs i / Ac i) (List.mem_map.2 ⟨i, by
          unfold posRows
          rw [List.mem_filter, List.mem_range, Bool.and_eq_true, decide_eq_true_eq, decide_eq_true_eq]
          exact ⟨hi, h0, hneg⟩, rfl⟩)
        rw [lt_div_iff₀ hpos] at this
        linarith
    exact ⟨key.le, fun _ => key⟩

/-! ## C156 -/

/-- C156.  At the inequality with the largest studentised moment the truncation points bracket the statistic `gamma' y`: both
versions of `compute_bounds` return `v_lo <= gamma' y <= v_up` (with numbers or infinities, never NaN). -/
theorem C156_bracket (nb : Bool) (n m : ℕ) (y : ℕ → ℝ) (sigma At : ℕ → ℕ → ℝ) (dt : ℕ → ℝ) (B : ℕ)
    (hB : IsFirstMax m (moment n At dt y) B) (hv : arpTol ≤ |etaSigmaEta n (At B) sigma|) (hr : Resolved n m sigma At B) :
    ∃ lo up, vBounds nb n m y sigma At dt B = some (lo, up) ∧ lo ≠ Bnd.nan ∧ up ≠ Bnd.nan ∧
      dotN n (At B) y ∈ truncSet lo up :=
  ⟨_, _, vBounds_eq nb n m y sigma At dt B hv hr, accum_not_nan _ _, accum_not_nan _ _,
    sel_trunc m B _ _ _ ((firstMax_sel n m sigma At dt y B hB.1).1 hB)⟩

/-- C156.  And they describe the conditioning event: other data `y'` with the same residual has the same truncation points, and the
same inequality attains the maximum as soon as `gamma' y'` lies strictly between them. -/
theorem C156_event (nb : Bool) (n m : ℕ) (y y' : ℕ → ℝ) (sigma At : ℕ → ℕ → ℝ) (dt : ℕ → ℝ) (B : ℕ) (lo up : Bnd ℝ)
    (hB : IsFirstMax m (moment n At dt y) B) (hv : arpTol ≤ |etaSigmaEta n (At B) sigma|) (hr : Resolved n m sigma At B)
    (hz : residual n sigma (At B) y' = residual n sigma (At B) y)
    (hb : vBounds nb n m y sigma At dt B = some (lo, up)) :
    vBounds nb n m y' sigma At dt B = some (lo, up) ∧
      (dotN n (At B) y' ∈ truncOpen lo up → IsFirstMax m (moment n At dt y') B) := by
  have e : vBounds nb n m y' sigma At dt B = vBounds nb n m y sigma At dt B := by unfold vBounds; rw [hz]
  refine ⟨e.trans hb, fun h => ?_⟩
  rw [vBounds_eq nb n m y sigma At dt B hv hr] at hb
  simp only [Option.some.injEq, Prod.mk.injEq] at hb
  rw [firstMax_sel n m sigma At dt y' B hB.1, hz]
  refine open_sel m B _ _ (dotN n (At B) y) _ hr ((firstMax_sel n m sigma At dt y B hB.1).1 hB) ?_
  rw [hb.1, hb.2]
  exact h

/-- C156.  The residual is uncorrelated with the statistic: for a symmetric covariance matrix, every coefficient of the residual has
zero covariance with `gamma' y`. -/
theorem C156_uncorrelated (n : ℕ) (sigma : ℕ → ℕ → ℝ) (g : ℕ → ℝ) (hs : ∀ i < n, ∀ j < n, sigma i j = sigma j i)
    (hv : etaSigmaEta n g sigma ≠ 0) (j : ℕ) (hj : j < n) :
    ∑ k ∈ range n, g k * (sigma k j - sigmaEta n g sigma j / etaSigmaEta n g sigma * sigmaEta n g sigma k) = 0 := by
  have h1 : ∑ k ∈ range n, g k * sigma k j = sigmaEta n g sigma j := by
    unfold sigmaEta
    refine sum_congr rfl fun k hk => ?_
    rw [hs k (mem_range.1 hk) j hj, mul_comm]
  have h2 : ∑ k ∈ range n, g k * (sigmaEta n g sigma j / etaSigmaEta n g sigma * sigmaEta n g sigma k) = sigmaEta n g sigma j := by
    have : ∑ k ∈ range n, g k * (sigmaEta n g sigma j / etaSigmaEta n g sigma * sigmaEta n g sigma k) =
        sigmaEta n g sigma j / etaSigmaEta n g sigma * etaSigmaEta n g sigma := by
      unfold etaSigmaEta
      rw [mul_sum]
      exact sum_congr rfl fun k _ => by ring
    rw [this, div_mul_cancel₀ _ hv]
  have : ∑ k ∈ range n, g k * (sigma k j - sigmaEta n g sigma j / etaSigmaEta n g sigma * sigmaEta n g sigma k) =
      ∑ k ∈ range n, g k * sigma k j - ∑ k ∈ range n, g k * (sigmaEta n g sigma j / etaSigmaEta n g sigma * sigmaEta n g sigma k) := by
    rw [← sum_sub_distrib]
    exact sum_congr rfl fun k _ => by ring
  rw [this, h1, h2, sub_self]

/-- Two independent unit-variance coefficients, `A = I`, `y = (3, 1)`: the first inequality attains the maximum. -/
example : ∃ lo up, vBounds true 2 2 (fun j => if j = 0 then 3 else 1) (fun i j => if i = j then 1 else 0)
    (fun i j => if i = j then 1 else 0) (fun _ => 0) 0 = some (lo, up) ∧
    dotN 2 (fun j => if (0 : ℕ) = j then (1 : ℝ) else 0) (fun j => if j = 0 then 3 else 1) ∈ truncSet lo up := by
  obtain ⟨lo, up, h, _, _, h2⟩ := C156_bracket true 2 2 (fun j => if j = 0 then 3 else 1) (fun i j => if i = j then 1 else 0)
    (fun i j => if i = j then 1 else 0) (fun _ => 0) 0
    ⟨by norm_num, fun i hi => by
      have : i = 0 ∨ i = 1 := by omega
      rcases this with rfl | rfl <;> simp [moment, dotN, sum_range_succ] <;> norm_num⟩
    (by simp [etaSigmaEta, sigmaEta, sum_range_succ, arpTol]; norm_num)
    (fun i hi => by
      have : i = 0 ∨ i = 1 := by omega
      rcases this with rfl | rfl
      · left; simp
      · right; simp [etaSigmaEta, sigmaEta, sum_range_succ, arpTol]; norm_num)
  exact ⟨lo, up, h, h2⟩

end Verif.Honest
