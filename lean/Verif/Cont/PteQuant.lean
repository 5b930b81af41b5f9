import Mathlib.Algebra.Order.Field.Basic
import Mathlib.Algebra.Order.BigOperators.Group.List
import Mathlib.Data.List.Sort
import Mathlib.Tactic.Linarith
import Mathlib.Tactic.NormNum
import Mathlib.Tactic.Ring
import Mathlib.Tactic.Positivity
import Mathlib.Tactic.FieldSimp

set_option linter.unusedSectionVars false
set_option linter.unusedSimpArgs false

/-!
# Quantile effects of `pte` (C229, C230)

Models `_combine_ecdfs`, `_make_ecdf` (`moderndid/didcont/estimation/bootstrap.py:538-568`), the reading of quantiles in
`qtt_pte_aggregations` (`bootstrap.py:379-425`) and `qott_pte_aggregations` (`bootstrap.py:461-493`), and numpy's `searchsorted`.
-/

namespace Verif.Cont

variable {K : Type*} [Field K] [LinearOrder K] [IsStrictOrderedRing K]

/-! ## Model -/

/-- `np.searchsorted(a, τ, side="left")`: numpy's binary search, used at `bootstrap.py:389-390,468`; the first argument bounds the number of
steps. -/
def bsearch (a : ℕ → K) (τ : K) : ℕ → ℕ → ℕ → ℕ
  | 0, lo, _ => lo
  | f + 1, lo, hi =>
    if lo < hi then
      if a (lo + (hi - lo) / 2) < τ then bsearch a τ f (lo + (hi - lo) / 2 + 1) hi else bsearch a τ f lo (lo + (hi - lo) / 2)
    else lo

/-- `np.mean(y >= ecdf)`: the empirical distribution function of the sample returned by a cell, `bootstrap.py:564`. -/
def sampleCdf (xs : List K) (y : K) : K := ((xs.countP fun x => decide (x ≤ y) : ℕ) : K) / (xs.length : K)

/-- `cdf_matrix @ (weights / weights.sum())` at one point, `bootstrap.py:553-566`; `l` lists the weight and distribution function of each
cell (a function, or `sampleCdf` of a sample). -/
def mixCdf (l : List (K × (K → K))) (y : K) : K := (l.map fun p => p.2 y * (p.1 / (l.map Prod.fst).sum)).sum

/-- `y_seq[np.clip(np.searchsorted(F(y_seq), τ, side="left"), 0, len(y_seq) - 1)]` for a grid of `n` points, `bootstrap.py:387-391`.  At a grid
point `np.interp` returns the value stored for it, so `F(y_seq)` is the mixture at the grid points (`bootstrap.py:538-545`). -/
def gridQuantile (grid : ℕ → K) (n : ℕ) (F : K → K) (τ : K) : K := grid (min (bsearch (fun i => F (grid i)) τ n 0 n) (n - 1))

/-- The overall quantile effect on the treated, `bootstrap.py:384-391`, and those of event times and cohorts, `bootstrap.py:399-425`. -/
def qttOf (grid : ℕ → K) (n : ℕ) (l0 l1 : List (K × (K → K))) (τ : K) : K :=
  gridQuantile grid n (mixCdf l1) τ - gridQuantile grid n (mixCdf l0) τ

/-- `np.linspace(-y_max, y_max, 1000)`, `bootstrap.py:463-464`. -/
def qottGrid (ymax : K) (i : ℕ) : K := -ymax + (i : K) * ((ymax - -ymax) / 999)

/-- The quantile of the distribution of effects, `bootstrap.py:467-469,477-479,489-491`. -/
def qottOf (ymax : K) (l : List (K × (K → K))) (τ : K) : K := gridQuantile (qottGrid ymax) 1000 (mixCdf l) τ

/-! ## Binary search -/

theorem bsearch_right (a : ℕ → K) (τ : K) (f lo hi : ℕ) (hf : hi - lo ≤ f) (hle : lo ≤ hi) (h : ∀ j, lo ≤ j → j < hi → a j < τ) :
    bsearch a τ f lo hi = hi := by
  induction f generalizing lo with
  | zero => unfold bsearch; omega
  | succ f ih =>
    unfold bsearch
    by_cases hlt : lo < hi
    · rw [if_pos hlt, if_pos (h _ (by omega) (by omega))]
      exact ih _ (by omega) (by omega) fun j h1 h2 => h j (by omega) h2
    · rw [if_neg hlt]; omega

theorem bsearch_left (a : ℕ → K) (τ : K) (f lo hi : ℕ) (h : ∀ j, lo ≤ j → j < hi → τ ≤ a j) : bsearch a τ f lo hi = lo := by
  induction f generalizing hi with
  | zero => rfl
  | succ f ih =>
    unfold bsearch
    by_cases hlt : lo < hi
    · rw [if_pos hlt, if_neg (not_lt.2 (h _ (by omega) (by omega)))]
      exact ih _ fun j h1 h2 => h j h1 (by omega)
    · rw [if_neg hlt]

/-- On an increasing array the search returns the first index with a value of at least `τ`. -/
theorem bsearch_mono (a : ℕ → K) (τ : K) (n : ℕ) (ha : ∀ i j, i ≤ j → j < n → a i ≤ a j) (f lo hi : ℕ) (hf : hi - lo ≤ f) (hle : lo ≤ hi)
    (hn : hi ≤ n) (h1 : ∀ j, j < lo → a j < τ) (h2 : ∀ j, hi ≤ j → j < n → τ ≤ a j) :
    bsearch a τ f lo hi ≤ n ∧ (∀ j, j < bsearch a τ f lo hi → a j < τ) ∧ ∀ j, bsearch a τ f lo hi ≤ j → j < n → τ ≤ a j := by
  induction f generalizing lo hi with
  | zero =>
    unfold bsearch
    exact ⟨by omega, h1, fun j hj => h2 j (by omega)⟩
  | succ f ih =>
    unfold bsearch
    by_cases hlt : lo < hi
    · rw [if_pos hlt]
      by_cases hm : a (lo + (hi - lo) / 2) < τ
      · rw [if_pos hm]
        exact ih _ hi (by omega) (by omega) hn (fun j hj => lt_of_le_of_lt (ha j _ (by omega) (by omega)) hm) h2
      · rw [if_neg hm]
        refine ih lo _ (by omega) (by omega) (by omega) h1 fun j hj hjn => ?_
        exact le_trans (not_lt.1 hm) (ha _ j hj hjn)
    · rw [if_neg hlt]
      exact ⟨by omega, h1, fun j hj => h2 j (by omega)⟩

/-- On a decreasing array the search returns one of the two ends. -/
theorem bsearch_anti (a : ℕ → K) (τ : K) (n : ℕ) (ha : ∀ i j, i ≤ j → j < n → a j ≤ a i) : bsearch a τ n 0 n = 0 ∨ bsearch a τ n 0 n = n := by
  cases n with
  | zero => left; rfl
  | succ m =>
    unfold bsearch
    rw [if_pos (by omega)]
    by_cases hm : a (0 + (m + 1 - 0) / 2) < τ
    · rw [if_pos hm]
      right
      refine bsearch_right a τ m _ _ (by omega) (by omega) fun j h1 h2 => ?_
      exact lt_of_le_of_lt (ha _ j (by omega) h2) hm
    · rw [if_neg hm]
      left
      refine bsearch_left a τ m 0 _ fun j h1 h2 => ?_
      exact le_trans (not_lt.1 hm) (ha j _ (by omega) (by omega))

/-! ## Distribution functions -/

/-- A nondecreasing function. -/
def Nondecreasing (F : K → K) : Prop := ∀ x y, x ≤ y → F x ≤ F y

theorem sampleCdf_mono (xs : List K) : Nondecreasing (sampleCdf xs) := by
  intro x y hxy
  unfold sampleCdf
  refine div_le_div_of_nonneg_right ?_ (by positivity)
  have : (xs.countP fun z => decide (z ≤ x)) ≤ xs.countP fun z => decide (z ≤ y) :=
    List.countP_mono_left fun z _ h => by
      rw [decide_eq_true_eq] at h ⊢
      exact le_trans h hxy
  exact_mod_cast this

theorem mixCdf_mono (l : List (K × (K → K))) (hF : ∀ p ∈ l, Nondecreasing p.2) (hw : ∀ p ∈ l, 0 ≤ p.1) : Nondecreasing (mixCdf l) := by
  intro x y hxy
  unfold mixCdf
  have hs : 0 ≤ (l.map Prod.fst).sum := List.sum_nonneg (by
    intro z hz
    obtain ⟨p, hp, rfl⟩ := List.mem_map.1 hz
    exact hw p hp)
  generalize (l.map Prod.fst).sum = s at hs
  induction l with
  | nil => simp
  | cons p l ih =>
    rw [List.map_cons, List.sum_cons, List.map_cons, List.sum_cons]
    refine add_le_add ?_ (ih (fun q hq => hF q (List.mem_cons_of_mem _ hq)) fun q hq => hw q (List.mem_cons_of_mem _ hq))
    exact mul_le_mul_of_nonneg_right (hF p (by simp) x y hxy) (div_nonneg (hw p (by simp)) hs)

/-! ## C229 -/

/-- **C229.**  On an increasing grid, if the mixture reaches `τ` on the grid, the reported quantile is the smallest grid point at which the
mixture is at least `τ`. -/
theorem C229_quantile (grid : ℕ → K) (n : ℕ) (hn : 0 < n) (hg : ∀ i j, i ≤ j → j < n → grid i ≤ grid j) (l : List (K × (K → K)))
    (hF : ∀ p ∈ l, Nondecreasing p.2) (hw : ∀ p ∈ l, 0 ≤ p.1) (τ : K) (hτ : τ ≤ mixCdf l (grid (n - 1))) :
    (∃ i < n, gridQuantile grid n (mixCdf l) τ = grid i) ∧ τ ≤ mixCdf l (gridQuantile grid n (mixCdf l) τ) ∧
      ∀ i < n, τ ≤ mixCdf l (grid i) → gridQuantile grid n (mixCdf l) τ ≤ grid i := by
  have hm := mixCdf_mono l hF hw
  obtain ⟨h0, h1, h2⟩ := bsearch_mono (fun i => mixCdf l (grid i)) τ n (fun i j hij hj => hm _ _ (hg i j hij hj)) n 0 n (by omega) (by omega)
    le_rfl (by omega) (by omega)
  have hlt : bsearch (fun i => mixCdf l (grid i)) τ n 0 n ≤ n - 1 := by
    by_contra hc
    exact absurd (h1 (n - 1) (by omega)) (not_lt.2 hτ)
  unfold gridQuantile
  rw [min_eq_left hlt]
  refine ⟨⟨_, by omega, rfl⟩, h2 _ le_rfl (by omega), fun i hi hle => ?_⟩
  refine hg _ _ ?_ hi
  by_contra hc
  exact absurd (h1 i (by omega)) (not_lt.2 hle)

/-- **C229.**  The reported effect is the treated quantile minus the counterfactual one: if `q1` is the smallest grid point at which the mixture
of treated distributions is at least `τ`, and `q0` that of the counterfactual distributions, it is `q1 - q0`. -/
theorem C229_effect (grid : ℕ → K) (n : ℕ) (hn : 0 < n) (hg : ∀ i j, i ≤ j → j < n → grid i ≤ grid j) (l0 l1 : List (K × (K → K)))
    (hF0 : ∀ p ∈ l0, Nondecreasing p.2) (hw0 : ∀ p ∈ l0, 0 ≤ p.1) (hF1 : ∀ p ∈ l1, Nondecreasing p.2) (hw1 : ∀ p ∈ l1, 0 ≤ p.1) (τ : K)
    (i0 i1 : ℕ) (h0 : i0 < n) (h1 : i1 < n) (hq0 : τ ≤ mixCdf l0 (grid i0)) (hq1 : τ ≤ mixCdf l1 (grid i1))
    (hm0 : ∀ i < n, τ ≤ mixCdf l0 (grid i) → grid i0 ≤ grid i) (hm1 : ∀ i < n, τ ≤ mixCdf l1 (grid i) → grid i1 ≤ grid i) :
    qttOf grid n l0 l1 τ = grid i1 - grid i0 := by
  have key : ∀ l : List (K × (K → K)), (∀ p ∈ l, Nondecreasing p.2) → (∀ p ∈ l, 0 ≤ p.1) → ∀ k < n, τ ≤ mixCdf l (grid k) →
      (∀ i < n, τ ≤ mixCdf l (grid i) → grid k ≤ grid i) → gridQuantile grid n (mixCdf l) τ = grid k := by
    intro l hF hw k hk hq hm
    obtain ⟨⟨j, hj, hje⟩, ha, hb⟩ := C229_quantile grid n hn hg l hF hw τ
      (le_trans hq (mixCdf_mono l hF hw _ _ (hg k (n - 1) (by omega) (by omega))))
    refine le_antisymm (hb k hk hq) ?_
    rw [hje] at ha ⊢
    exact hm j hj ha
  rw [qttOf, key l0 hF0 hw0 i0 h0 hq0 hm0, key l1 hF1 hw1 i1 h1 hq1 hm1]

/-- Treated outcomes `2, 5`, counterfactual `1, 4`, grid `0..10`: the effect at the median is `2 - 1`. -/
example : qttOf (fun i => (i : ℚ)) 11 [((1 : ℚ), sampleCdf [1, 4])] [((1 : ℚ), sampleCdf [2, 5])] (1 / 2) = ((2 : ℕ) : ℚ) - ((1 : ℕ) : ℚ) :=
  C229_effect (fun i => (i : ℚ)) 11 (by norm_num) (fun i j hij _ => by simpa using hij) _ _
    (by intro p hp; rw [List.mem_singleton] at hp; subst hp; exact sampleCdf_mono _) (by decide +kernel)
    (by intro p hp; rw [List.mem_singleton] at hp; subst hp; exact sampleCdf_mono _) (by decide +kernel) (1 / 2) 1 2 (by norm_num) (by norm_num)
    (by decide +kernel) (by decide +kernel) (by decide +kernel) (by decide +kernel)

/-- The largest sample point at or below `y`. -/
theorem cdf_at_sample (l : List (K × List K)) (hw : ∀ p ∈ l, 0 ≤ p.1) (y : K)
    (hy : 0 < mixCdf (l.map fun p => (p.1, sampleCdf p.2)) y) :
    ∃ p ∈ l, ∃ x ∈ p.2, x ≤ y ∧ mixCdf (l.map fun p => (p.1, sampleCdf p.2)) x = mixCdf (l.map fun p => (p.1, sampleCdf p.2)) y := by
  classical
  obtain ⟨S, hS⟩ : ∃ S, S = (l.flatMap fun p => p.2).filter fun x => decide (x ≤ y) := ⟨_, rfl⟩
  have hmem : ∀ x, x ∈ S ↔ (∃ p ∈ l, x ∈ p.2) ∧ x ≤ y := by
    intro x
    rw [hS, List.mem_filter, List.mem_flatMap, decide_eq_true_eq]
  have hne : S ≠ [] := by
    intro h
    have hz : mixCdf (l.map fun p => (p.1, sampleCdf p.2)) y = 0 := by
      unfold mixCdf
      refine List.sum_eq_zero ?_
      intro z hz
      obtain ⟨q, hq, rfl⟩ := List.mem_map.1 hz
      obtain ⟨p, hp, rfl⟩ := List.mem_map.1 hq
      have : sampleCdf p.2 y = 0 := by
        unfold sampleCdf
        have : (p.2.countP fun x => decide (x ≤ y)) = 0 := by
          rw [List.countP_eq_zero]
          intro x hx hle
          have : x ∈ S := (hmem x).2 ⟨⟨p, hp, hx⟩, by simpa using hle⟩
          rw [h] at this; simp at this
        rw [this]; simp
      simp only [this, zero_mul]
    rw [hz] at hy; exact lt_irrefl _ hy
  obtain ⟨x, hx⟩ : ∃ x, S.max? = some x := by
    cases h : S.max? with
    | none => exact absurd (List.max?_eq_none_iff.1 h) hne
    | some x => exact ⟨x, rfl⟩
  have hxS := List.max?_mem hx
  obtain ⟨⟨p, hp, hxp⟩, hxy⟩ := (hmem x).1 hxS
  refine ⟨p, hp, x, hxp, hxy, ?_⟩
  unfold mixCdf
  refine congrArg List.sum (List.map_congr_left fun q hq => ?_)
  obtain ⟨q', hq', rfl⟩ := List.mem_map.1 hq
  have : sampleCdf q'.2 x = sampleCdf q'.2 y := by
    unfold sampleCdf
    have : (q'.2.countP fun z => decide (z ≤ x)) = q'.2.countP fun z => decide (z ≤ y) := by
      refine List.countP_congr fun z hz => ?_
      rw [decide_eq_true_eq, decide_eq_true_eq]
      constructor
      · exact fun h => le_trans h hxy
      · intro h
        have hzS := (hmem z).2 ⟨⟨q', hq', hz⟩, h⟩
        exact (List.max?_le_iff hx).1 le_rfl z hzS
    rw [this]
  simp only [this]

/-- **C229.**  If moreover every value of the cells' samples is a grid point, the reported quantile is the quantile of the mixture itself: the
smallest number at which it is at least `τ`. -/
theorem C229_exact (grid : ℕ → K) (n : ℕ) (hn : 0 < n) (hg : ∀ i j, i ≤ j → j < n → grid i ≤ grid j) (l : List (K × List K))
    (hw : ∀ p ∈ l, 0 ≤ p.1) (hin : ∀ p ∈ l, ∀ x ∈ p.2, ∃ i < n, grid i = x) (τ : K) (hτ0 : 0 < τ)
    (hτ : τ ≤ mixCdf (l.map fun p => (p.1, sampleCdf p.2)) (grid (n - 1))) (y : K) :
    τ ≤ mixCdf (l.map fun p => (p.1, sampleCdf p.2)) y ↔
      gridQuantile grid n (mixCdf (l.map fun p => (p.1, sampleCdf p.2))) τ ≤ y := by
  have hF : ∀ p ∈ l.map (fun p => (p.1, sampleCdf p.2)), Nondecreasing p.2 := by
    intro p hp
    obtain ⟨q, _, rfl⟩ := List.mem_map.1 hp
    exact sampleCdf_mono q.2
  have hw' : ∀ p ∈ l.map (fun p => (p.1, sampleCdf p.2)), 0 ≤ p.1 := by
    intro p hp
    obtain ⟨q, hq, rfl⟩ := List.mem_map.1 hp
    exact hw q hq
  obtain ⟨-, h2, h3⟩ := C229_quantile grid n hn hg _ hF hw' τ hτ
  constructor
  · intro hy
    obtain ⟨p, hp, x, hx, hxy, he⟩ := cdf_at_sample l hw y (lt_of_lt_of_le hτ0 hy)
    obtain ⟨i, hi, rfl⟩ := hin p hp x hx
    exact le_trans (h3 i hi (by rw [he]; exact hy)) hxy
  · intro hy
    exact le_trans h2 (mixCdf_mono _ hF hw' _ _ hy)

/-- Two cells with samples `1, 3` and `2, 2, 3`, weights `1/2` each; the grid holds the outcomes `1, 2, 3`. -/
example : gridQuantile (fun i => ((i : ℚ) + 1)) 3 (mixCdf [((1 / 2 : ℚ), sampleCdf [1, 3]), (1 / 2, sampleCdf [2, 2, 3])]) (1 / 2) = 2 := by
  decide +kernel

example (y : ℚ) : 1 / 2 ≤ mixCdf [((1 / 2 : ℚ), sampleCdf [1, 3]), (1 / 2, sampleCdf [2, 2, 3])] y ↔
    gridQuantile (fun i => ((i : ℚ) + 1)) 3 (mixCdf [((1 / 2 : ℚ), sampleCdf [1, 3]), (1 / 2, sampleCdf [2, 2, 3])]) (1 / 2) ≤ y :=
  C229_exact (fun i => ((i : ℚ) + 1)) 3 (by decide) (fun i j hij _ => by simpa using hij) [((1 / 2 : ℚ), [1, 3]), (1 / 2, [2, 2, 3])]
    (by decide +kernel) (by
      intro p hp x hx
      simp only [List.mem_cons, List.not_mem_nil, or_false] at hp
      rcases hp with rfl | rfl <;> simp only [List.mem_cons, List.not_mem_nil, or_false] at hx
      · rcases hx with rfl | rfl
        · exact ⟨0, by decide, by norm_num⟩
        · exact ⟨2, by decide, by norm_num⟩
      · rcases hx with rfl | rfl | rfl
        · exact ⟨1, by decide, by norm_num⟩
        · exact ⟨1, by decide, by norm_num⟩
        · exact ⟨2, by decide, by norm_num⟩) (1 / 2) (by norm_num) (by decide +kernel) y

/-- **C229 (violated).**  The grid spans the observed outcomes only.  A counterfactual quantile above the largest observed outcome is reported
as that outcome, however large it is. -/
theorem C229_range_violated (grid : ℕ → K) (n : ℕ) (hg : ∀ i j, i ≤ j → j < n → grid i ≤ grid j) (l : List (K × (K → K)))
    (hF : ∀ p ∈ l, Nondecreasing p.2) (hw : ∀ p ∈ l, 0 ≤ p.1) (τ : K) (hτ : mixCdf l (grid (n - 1)) < τ) :
    gridQuantile grid n (mixCdf l) τ = grid (n - 1) := by
  unfold gridQuantile
  rw [bsearch_right _ τ n 0 n (by omega) (by omega) fun j _ hj =>
    lt_of_le_of_lt (mixCdf_mono l hF hw _ _ (hg j (n - 1) (by omega) (by omega))) hτ, min_eq_right (by omega)]

/-- Treated outcomes are `0`, their counterfactual `100`; observed outcomes span `0..10`.  The effect at the median is `-100`, reported
is `-10`. -/
example : qttOf (fun i => (i : ℚ)) 11 [((1 : ℚ), sampleCdf [100])] [((1 : ℚ), sampleCdf [0])] (1 / 2) = -10 := by decide +kernel

example : gridQuantile (fun i => (i : ℚ)) 11 (mixCdf [((1 : ℚ), sampleCdf [100])]) (1 / 2) = ((11 - 1 : ℕ) : ℚ) :=
  C229_range_violated (fun i => (i : ℚ)) 11 (fun i j hij _ => by simpa using hij) [((1 : ℚ), sampleCdf [100])]
    (by intro p hp; rw [List.mem_singleton] at hp; subst hp; exact sampleCdf_mono _) (by decide +kernel) (1 / 2) (by decide +kernel)

/-! ## C230 -/

theorem qottGrid_pos (ymax : K) (h : 0 ≤ ymax) (i j : ℕ) (hij : i ≤ j) : qottGrid ymax i ≤ qottGrid ymax j := by
  unfold qottGrid
  have h1 : (0 : K) ≤ (ymax - -ymax) / 999 := div_nonneg (by linarith) (by norm_num)
  have h2 : (i : K) ≤ j := by exact_mod_cast hij
  have := mul_le_mul_of_nonneg_right h2 h1
  linarith

theorem qottGrid_neg (ymax : K) (h : ymax ≤ 0) (i j : ℕ) (hij : i ≤ j) : qottGrid ymax j ≤ qottGrid ymax i := by
  unfold qottGrid
  have h1 : (ymax - -ymax) / 999 ≤ (0 : K) := div_nonpos_of_nonpos_of_nonneg (by linarith) (by norm_num)
  have h2 : (i : K) ≤ j := by exact_mod_cast hij
  have := mul_le_mul_of_nonpos_right h2 h1
  linarith

theorem qottGrid_first (ymax : K) : qottGrid ymax 0 = -ymax := by simp [qottGrid]

theorem qottGrid_last (ymax : K) : qottGrid ymax 999 = ymax := by
  unfold qottGrid
  push_cast
  have : (999 : K) ≠ 0 := by norm_num
  field_simp
  ring

/-- **C230.**  If the largest outcome is not negative and the mixture of effect distributions reaches `τ` below it, the reported quantile is the
smallest of the 1000 equally spaced points between minus and plus the largest outcome at which the mixture is at least `τ`. -/
theorem C230_quantile (ymax : K) (h : 0 ≤ ymax) (l : List (K × (K → K))) (hF : ∀ p ∈ l, Nondecreasing p.2) (hw : ∀ p ∈ l, 0 ≤ p.1)
    (τ : K) (hτ : τ ≤ mixCdf l ymax) :
    (∃ i < 1000, qottOf ymax l τ = qottGrid ymax i) ∧ τ ≤ mixCdf l (qottOf ymax l τ) ∧
      ∀ i < 1000, τ ≤ mixCdf l (qottGrid ymax i) → qottOf ymax l τ ≤ qottGrid ymax i :=
  C229_quantile (qottGrid ymax) 1000 (by norm_num) (fun i j hij _ => qottGrid_pos ymax h i j hij) l hF hw τ (by
    have : (1000 : ℕ) - 1 = 999 := rfl
    rw [this, qottGrid_last]; exact hτ)

example : ∃ i < 1000, qottOf (10 : ℚ) [((1 : ℚ), sampleCdf [3, 4, 5])] (1 / 2) = qottGrid 10 i :=
  (C230_quantile (10 : ℚ) (by norm_num) [((1 : ℚ), sampleCdf [3, 4, 5])]
    (by intro p hp; rw [List.mem_singleton] at hp; subst hp; exact sampleCdf_mono _) (by decide +kernel) (1 / 2) (by decide +kernel)).1

/-- **C230 (violated).**  If all outcomes are negative, the grid runs backwards and the reported quantile is minus or plus the largest outcome,
whatever the distribution of effects and the quantile asked for. -/
theorem C230_negative_violated (ymax : K) (h : ymax < 0) (l : List (K × (K → K))) (hF : ∀ p ∈ l, Nondecreasing p.2)
    (hw : ∀ p ∈ l, 0 ≤ p.1) (τ : K) : qottOf ymax l τ = -ymax ∨ qottOf ymax l τ = ymax := by
  unfold qottOf gridQuantile
  rcases bsearch_anti (fun i => mixCdf l (qottGrid ymax i)) τ 1000
    (fun i j hij _ => mixCdf_mono l hF hw _ _ (qottGrid_neg ymax h.le i j hij)) with he | he
  · left
    rw [he]
    exact qottGrid_first ymax
  · right
    rw [he]
    exact qottGrid_last ymax

/-- Outcomes at most `-5`, every effect equal to `1`: the reported median effect is `5`. -/
example : qottOf (-5 : ℚ) [((1 : ℚ), sampleCdf [1])] (1 / 2) = 5 ∨ qottOf (-5 : ℚ) [((1 : ℚ), sampleCdf [1])] (1 / 2) = -5 := by
  have := C230_negative_violated (-5 : ℚ) (by norm_num) [((1 : ℚ), sampleCdf [1])]
    (by intro p hp; rw [List.mem_singleton] at hp; subst hp; exact sampleCdf_mono _) (by decide +kernel) (1 / 2)
  simpa using this

/-- **C230 (violated).**  Effects below minus the largest outcome are reported as minus the largest outcome. -/
theorem C230_clip_violated (ymax : K) (h : 0 ≤ ymax) (l : List (K × (K → K))) (hF : ∀ p ∈ l, Nondecreasing p.2) (hw : ∀ p ∈ l, 0 ≤ p.1)
    (τ : K) (hτ : τ ≤ mixCdf l (-ymax)) : qottOf ymax l τ = -ymax := by
  unfold qottOf gridQuantile
  rw [bsearch_left _ τ 1000 0 1000 fun j _ _ => ?_]
  · exact qottGrid_first ymax
  · refine le_trans hτ (mixCdf_mono l hF hw _ _ ?_)
    rw [← qottGrid_first ymax]
    exact qottGrid_pos ymax h 0 j (by omega)

/-- Outcomes up to `1`, every effect equal to `-50`: the reported median effect is `-1`. -/
example : qottOf (1 : ℚ) [((1 : ℚ), sampleCdf [-50])] (1 / 2) = -1 :=
  C230_clip_violated (1 : ℚ) (by norm_num) [((1 : ℚ), sampleCdf [-50])]
    (by intro p hp; rw [List.mem_singleton] at hp; subst hp; exact sampleCdf_mono _) (by decide +kernel) (1 / 2) (by decide +kernel)

end Verif.Cont
