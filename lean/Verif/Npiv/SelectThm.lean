import Verif.Npiv.Select
import Verif.Npiv.Dim
import Mathlib.Tactic.NormNum
import Mathlib.Tactic.Ring

/-!
# The data-driven sieve dimension: which candidate is chosen
-/

set_option linter.unusedSectionVars false
set_option linter.unusedSimpArgs false

namespace Verif.Npiv.Sel

open scoped ENNReal

/-! ## The candidate grid -/

theorem find?_range_some {L : ℕ} {p : ℕ → Bool} {k : ℕ} (h : (List.range L).find? p = some k) :
    k < L ∧ p k = true ∧ ∀ i < k, p i = false := by
  rw [List.find?_range_eq_some] at h
  refine ⟨List.mem_range.1 h.2.1, h.1, fun i hi => ?_⟩
  have := h.2.2 i hi
  simpa using this

theorem find?_range_none {L : ℕ} {p : ℕ → Bool} (h : (List.range L).find? p = none) :
    ∀ i < L, p i = false := by
  intro i hi
  rw [List.find?_eq_none] at h
  have := h i (List.mem_range.2 hi)
  simpa using this

theorem testVal_prefix (f : ℕ → ℝ) (T : ℝ) (k : ℕ) (h0 : f 0 ≤ T)
    (h : ∀ i < k, ¬(testVal f T i ≤ T ∧ T < testVal f T (i + 1))) :
    (∀ i ≤ k, testVal f T i ≤ T ∧ testVal f T i = f i) ∧ testVal f T (k + 1) = f (k + 1) := by
  have le : ∀ i ≤ k, testVal f T i ≤ T := by
    intro i
    induction i with
    | zero => intro _; simpa [testVal] using h0
    | succ i ih =>
      intro hi
      have h1 := ih (by omega)
      have h2 := h i (by omega)
      by_contra hc
      exact h2 ⟨h1, not_le.1 hc⟩
  have eq : ∀ i ≤ k + 1, testVal f T i = f i := by
    intro i hi
    match i, hi with
    | 0, _ => rfl
    | 1, _ => rfl
    | i + 2, hi =>
      rw [testVal, if_pos (le i (by omega))]
  exact ⟨fun i hi => ⟨le i hi, eq i (by omega)⟩, eq (k + 1) (by omega)⟩

/-- C200.  When the smallest candidate satisfies the limit, the candidates kept are the longest initial
run of candidates that satisfy it (at most `L`). -/
theorem C200_longest_run (f : ℕ → ℝ) (T : ℝ) (L : ℕ) (hL : 1 ≤ L) (h0 : f 0 ≤ T) :
    1 ≤ gridLen f T L ∧ gridLen f T L ≤ L ∧ (∀ i < gridLen f T L, f i ≤ T) ∧
      (gridLen f T L < L → T < f (gridLen f T L)) := by
  classical
  unfold gridLen
  cases e : (List.range L).find? (fun i => decide (testVal f T i ≤ T ∧ T < testVal f T (i + 1))) with
  | some k =>
    obtain ⟨hk, hp, hlt⟩ := find?_range_some e
    have hp' : testVal f T k ≤ T ∧ T < testVal f T (k + 1) := by simpa using hp
    obtain ⟨ha, hb⟩ := testVal_prefix f T k h0 (fun i hi => by simpa using hlt i hi)
    have hg : ((some k).map (· + 1)).getD L = k + 1 := rfl
    rw [hg]
    refine ⟨by omega, by omega, fun i hi => ?_, fun _ => ?_⟩
    · have := ha i (by omega)
      rw [← this.2]; exact this.1
    · rw [← hb]; exact hp'.2
  | none =>
    have hn := find?_range_none e
    have hg : ((none : Option ℕ).map (· + 1)).getD L = L := rfl
    rw [hg]
    refine ⟨hL, le_refl _, fun i hi => ?_, fun h => absurd h (lt_irrefl _)⟩
    obtain ⟨ha, _⟩ := testVal_prefix f T i h0 (fun j hj => by simpa using hn j (by omega))
    have := ha i le_rfl
    rw [← this.2]; exact this.1

example : gridLen (fun i => (i : ℝ)) 1 3 = 2 := by
  obtain ⟨_, h2, h3, h4⟩ := C200_longest_run (fun i => (i : ℝ)) 1 3 (by norm_num) (by norm_num)
  have hle : gridLen (fun i => (i : ℝ)) 1 3 ≤ 2 := by
    by_contra hc
    have := h3 2 (by omega)
    norm_num at this
  have hgt := h4 (by omega)
  have : 1 < gridLen (fun i => (i : ℝ)) 1 3 := by exact_mod_cast hgt
  omega

/-- C200.  The candidates are doubling numbers of segments starting at one, in increasing order, each
with its own number of instrument segments, `2 ^ smooth` times as many. -/
theorem C200_candidates (n p smooth : ℕ) (dim : ℕ → ℕ) (raw : ℕ → Option ℝ) :
    (candidates n p smooth dim raw).1.Pairwise (· < ·) ∧
    (candidates n p smooth dim raw).2.length = (candidates n p smooth dim raw).1.length ∧
    (∀ i j : ℕ, (candidates n p smooth dim raw).1[i]? = some j →
      j = 2 ^ i ∧ (candidates n p smooth dim raw).2[i]? = some (2 ^ smooth * j)) := by
  refine ⟨?_, by simp [candidates, jSet, kSet], ?_⟩
  · simp only [candidates, jSet, List.pairwise_map]
    exact List.pairwise_lt_range.imp (fun {a b} h => Nat.pow_lt_pow_right (by norm_num) h)
  · intro i j hj
    simp only [candidates, jSet, kSet, List.getElem?_map, Option.map_eq_some_iff] at hj ⊢
    obtain ⟨a, ha, rfl⟩ := hj
    have : a = i := by
      rw [List.getElem?_eq_some_iff] at ha
      obtain ⟨h, hh⟩ := ha
      simpa using hh.symm
    subst this
    exact ⟨rfl, a, ha, by rw [pow_add, mul_comm]⟩

example : (jSet 3) = [1, 2, 4] ∧ kSet 2 3 = [4, 8, 16] := by decide

/-- C200 violated.  When the two smallest candidates both exceed the limit, no candidate is discarded
for exceeding it: the grid has its full length. -/
theorem C200_none_feasible_violated (f : ℕ → ℝ) (T : ℝ) (L : ℕ) (h0 : T < f 0) (h1 : T < f 1) :
    gridLen f T L = L := by
  classical
  have hall : ∀ i, T < testVal f T i := by
    intro i
    induction i using Nat.strong_induction_on with
    | _ i ih =>
      match i, ih with
      | 0, _ => exact h0
      | 1, _ => exact h1
      | i + 2, ih =>
        rw [testVal, if_neg (not_le.2 (ih i (by omega)))]
        exact ih (i + 1) (by omega)
  unfold gridLen
  have : (List.range L).find? (fun i => decide (testVal f T i ≤ T ∧ T < testVal f T (i + 1))) = none := by
    rw [List.find?_eq_none]
    intro i _
    simpa using fun h => absurd h (not_le.2 (hall i))
  rw [this]
  rfl

theorem sqrt_log_pos (J : ℕ) (hJ : 2 ≤ J) : 0 < (J : ℝ) * Real.sqrt (Real.log J) := by
  have h1 : (1 : ℝ) < J := by exact_mod_cast hJ
  have := Real.sqrt_pos.2 (Real.log_pos h1)
  positivity

/-- C200 violated.  Weak instruments: for every sample size there is a bound on the singular values
below which, for all candidates, the full grid is kept. -/
theorem C200_weak_instruments_violated (n p smooth : ℕ) (dim : ℕ → ℕ) (hd : ∀ i, 2 ≤ dim i) :
    ∃ ε > 0, ∀ s : ℕ → ℝ, (∀ i, 0 < s i ∧ s i < ε) →
      (candidates n p smooth dim (fun i => some (s i))).1.length = max ⌊Real.log n / Real.log (2 * p)⌋₊ 3 := by
  show ∃ ε > 0, ∀ s : ℕ → ℝ, (∀ i, 0 < s i ∧ s i < ε) →
      (candidates n p smooth dim (fun i => some (s i))).1.length = lMax n p
  obtain ⟨T, hT⟩ : ∃ T, T = 10 * Real.sqrt (n : ℝ) := ⟨_, rfl⟩
  have hT0 : 0 ≤ T := by rw [hT]; positivity
  obtain ⟨c0, hc0⟩ : ∃ c, c = (dim 0 : ℝ) * Real.sqrt (Real.log (dim 0)) := ⟨_, rfl⟩
  obtain ⟨c1, hc1⟩ : ∃ c, c = (dim 1 : ℝ) * Real.sqrt (Real.log (dim 1)) := ⟨_, rfl⟩
  have p0 : 0 < c0 := hc0 ▸ sqrt_log_pos _ (hd 0)
  have p1 : 0 < c1 := hc1 ▸ sqrt_log_pos _ (hd 1)
  refine ⟨min (c0 / (T + 1)) (c1 / (T + 1)), lt_min (by positivity) (by positivity), fun s hs => ?_⟩
  have key : ∀ (c : ℝ) (i : ℕ), 0 < c → s i < c / (T + 1) →
      T < c * max ((0.1 * Real.log n) ^ 4) (1 / s i) := by
    intro c i hc hsi
    have hp := (hs i).1
    have h1 : T + 1 < c / s i := by
      rw [lt_div_iff₀ hp]
      rw [lt_div_iff₀ (by positivity)] at hsi
      linarith
    have h2 : c / s i ≤ c * max ((0.1 * Real.log n) ^ 4) (1 / s i) := by
      rw [div_eq_mul_one_div]
      exact mul_le_mul_of_nonneg_left (le_max_right _ _) hc.le
    linarith
  have e : ∀ i, sieveTest n (dim i) (sHat n (some (s i))) =
      (dim i : ℝ) * Real.sqrt (Real.log (dim i)) * max ((0.1 * Real.log n) ^ 4) (1 / s i) := by
    intro i
    simp [sieveTest, sHat, (hs i).1]
  simp only [candidates, jSet, List.length_map, List.length_range]
  rw [← hT]
  apply C200_none_feasible_violated
  · rw [e 0, ← hc0]
    exact key c0 0 p0 (lt_of_lt_of_le (hs 0).2 (min_le_left _ _))
  · rw [e 1, ← hc1]
    exact key c1 1 p1 (lt_of_lt_of_le (hs 1).2 (min_le_right _ _))

example : ∃ ε > 0, ∀ s : ℕ → ℝ, (∀ i, 0 < s i ∧ s i < ε) →
    (candidates 100 1 2 (fun i => 3 + 2 ^ i) (fun i => some (s i))).1.length = max ⌊Real.log (100 : ℕ) / Real.log (2 * (1 : ℕ))⌋₊ 3 :=
  C200_weak_instruments_violated _ _ _ _ (fun _ => le_trans (by norm_num) (Nat.le_add_right 3 _))

/-- C200 violated.  A singular value of exactly zero (the sieve is not identified), or a failed
computation, is treated as if the problem were as well posed as a regression: the test value is that of
`w = x`; while an arbitrarily small positive singular value makes it exceed any limit. -/
theorem C200_singular_violated (n J : ℕ) (hJ : 2 ≤ J) :
    (∀ raw : Option ℝ, raw = none ∨ raw = some 0 →
      sieveTest n J (sHat n raw) = sieveTest n J (max 1 ((0.1 * Real.log n) ^ 4)) ∧
      sieveTest n J (sHat n raw) ≤ J * Real.sqrt (Real.log J) * max ((0.1 * Real.log n) ^ 4) 1) ∧
    (∀ T : ℝ, ∃ ε > 0, ∀ s, 0 < s → s < ε → T < sieveTest n J (sHat n (some s))) := by
  have hc := sqrt_log_pos J hJ
  constructor
  · intro raw hraw
    have hs : sHat n raw = max 1 ((0.1 * Real.log n) ^ 4) := by
      rcases hraw with h | h <;> subst h <;> simp [sHat]
    rw [hs]
    refine ⟨rfl, ?_⟩
    unfold sieveTest
    apply mul_le_mul_of_nonneg_left _ hc.le
    apply max_le_max le_rfl
    rw [div_le_one (lt_of_lt_of_le one_pos (le_max_left _ _))]
    exact le_max_left _ _
  · intro T
    refine ⟨(J * Real.sqrt (Real.log J)) / (|T| + 1), by positivity, fun s h0 h1 => ?_⟩
    have h2 : |T| + 1 < (J * Real.sqrt (Real.log J)) / s := by
      rw [lt_div_iff₀ h0]
      rw [lt_div_iff₀ (by positivity)] at h1
      linarith
    have h3 : (J * Real.sqrt (Real.log J)) / s ≤ sieveTest n J (sHat n (some s)) := by
      unfold sieveTest sHat
      simp only [h0, if_true]
      rw [div_eq_mul_one_div]
      exact mul_le_mul_of_nonneg_left (le_max_right _ _) hc.le
    have := le_abs_self T
    linarith

example : sieveTest 100 4 (sHat 100 (some 0)) = sieveTest 100 4 (sHat 100 none) := by
  rw [((C200_singular_violated 100 4 (by norm_num)).1 _ (Or.inr rfl)).1,
    ((C200_singular_violated 100 4 (by norm_num)).1 _ (Or.inl rfl)).1]

/-! ## The comparison of the candidates -/

theorem mem_pairs {n i j : ℕ} : (i, j) ∈ pairs n ↔ i < j ∧ j < n := by
  unfold pairs
  simp only [List.mem_flatMap, List.mem_range, List.mem_map, List.mem_filter, decide_eq_true_eq, Prod.mk.injEq]
  constructor
  · rintro ⟨a, _, b, ⟨hb, hab⟩, rfl, rfl⟩
    exact ⟨hab, hb⟩
  · rintro ⟨h1, h2⟩
    exact ⟨i, by omega, j, ⟨h2, h1⟩, rfl, rfl⟩

theorem pairs_eq_nil {n : ℕ} : pairs n = [] ↔ n ≤ 1 := by
  constructor
  · intro h
    by_contra hc
    have : (0, 1) ∈ pairs n := mem_pairs.2 ⟨by omega, by omega⟩
    rw [h] at this
    simp at this
  · intro h
    rw [List.eq_nil_iff_forall_not_mem]
    rintro ⟨i, j⟩ hm
    have := mem_pairs.1 hm
    omega

theorem quantLower_isSome {α : Type} [LinearOrder α] (l : List α) (q : ℝ) (h0 : l ≠ []) (hq0 : 0 ≤ q)
    (hq1 : q ≤ 1) : ∃ v, quantLower l q = some v ∧ v ∈ l := by
  have hl : 0 < l.length := List.length_pos_of_ne_nil h0
  have hlt : ⌊q * ((l.length : ℝ) - 1)⌋₊ < (l.insertionSort (· ≤ ·)).length := by
    rw [List.length_insertionSort]
    have h1 : (1 : ℝ) ≤ l.length := by exact_mod_cast hl
    have : ⌊q * ((l.length : ℝ) - 1)⌋₊ ≤ l.length - 1 := by
      apply Nat.floor_le_of_le
      rw [Nat.cast_sub hl]
      have : q * ((l.length : ℝ) - 1) ≤ 1 * ((l.length : ℝ) - 1) :=
        mul_le_mul_of_nonneg_right hq1 (by linarith)
      simpa using this
    omega
  refine ⟨_, List.getElem?_eq_getElem hlt, ?_⟩
  exact (List.mem_insertionSort (· ≤ ·)).1 (List.getElem_mem hlt)

/-- The specification: candidate `i` passes when it does not differ significantly from any larger
candidate. -/
def Passes (P : Lep) (θ : ℝ≥0∞) (i : ℕ) : Prop := ∀ j, i < j → j < P.S.length → P.z i j ≤ 11 / 10 * θ

theorem selIdx_spec (P : Lep) (θ : ℝ≥0∞) (hn : 1 ≤ P.S.length) :
    P.selIdx θ < P.S.length ∧ Passes P θ (P.selIdx θ) ∧ ∀ i < P.selIdx θ, ¬ Passes P θ i := by
  classical
  have hp : ∀ i, ((List.range P.S.length).all (fun j => decide (i < j → P.z i j ≤ 11 / 10 * θ))) = true ↔
      Passes P θ i := by
    intro i
    simp only [List.all_eq_true, List.mem_range, decide_eq_true_eq, Passes]
    exact ⟨fun h j h1 h2 => h j h2 h1, fun h j h1 h2 => h j h2 h1⟩
  unfold Lep.selIdx
  cases e : (List.range (P.S.length - 1)).find? (fun i =>
    (List.range P.S.length).all (fun j => decide (i < j → P.z i j ≤ 11 / 10 * θ))) with
  | some k =>
    obtain ⟨hk, hp1, hlt⟩ := find?_range_some e
    refine ⟨by simp only [Option.getD_some]; omega, (hp k).1 hp1, fun i hi hc => ?_⟩
    have := hlt i hi
    rw [(hp i).2 hc] at this
    exact absurd this (by simp)
  | none =>
    have hno := find?_range_none e
    refine ⟨by simp only [Option.getD_none]; omega, fun j h1 h2 => ?_, fun i hi hc => ?_⟩
    · simp only [Option.getD_none] at h1; omega
    · have := hno i hi
      rw [(hp i).2 hc] at this
      exact absurd this (by simp)

theorem getD_getElem {S : List ℕ} {i : ℕ} (d : ℕ) (hi : i < S.length) : S.getD i d = S[i] := by
  simp [List.getD, hi]

theorem strictMono_get {S : List ℕ} (h : S.Pairwise (· < ·)) {i j : ℕ} (hij : i ≤ j) (hj : j < S.length) :
    S.getD i 0 ≤ S.getD j 0 := by
  have hi : i < S.length := by omega
  rw [getD_getElem _ hi, getD_getElem _ hj]
  rcases Nat.lt_or_eq_of_le hij with h1 | h1
  · exact le_of_lt (List.pairwise_iff_getElem.1 h i j hi hj h1)
  · subst h1; exact le_rfl

theorem idxOf_getD {S : List ℕ} (h : S.Pairwise (· < ·)) {i : ℕ} (hi : i < S.length) :
    S.idxOf (S.getD i 0) = i := by
  rw [getD_getElem _ hi]
  exact List.Nodup.idxOf_getElem (h.imp (fun {a b} h => ne_of_lt h)) i hi

theorem run_of_theta (P : Lep) (hS : P.S.Pairwise (· < ·)) (hK : P.K.length = P.S.length)
    (h2 : 2 ≤ P.S.length) (θ : ℝ≥0∞) (hθ : P.theta = some θ) :
    P.run = some (P.S.getD (min (P.selIdx θ) (P.S.length - 2)) 0,
      P.K.getD (min (P.selIdx θ) (P.S.length - 2)) 0, θ) := by
  obtain ⟨hlt, _, _⟩ := selIdx_spec P θ (by omega)
  obtain ⟨i, hi⟩ : ∃ i, i = P.selIdx θ := ⟨_, rfl⟩
  have hunf : P.run = P.theta.bind (fun θ =>
    let jSeg := P.S.getD (P.selIdx θ) 0
    let jSegN := if 1 < P.S.length then P.S.getD (P.S.length - 2) 0 else jSeg
    let jx := min jSeg jSegN
    (P.K[P.S.idxOf jx]?).map (fun k => (jx, k, θ))) := rfl
  rw [hunf, hθ]
  dsimp only [Option.bind_some]
  rw [if_pos (show 1 < P.S.length by omega), ← hi]
  rw [← hi] at hlt
  have hmin : min (P.S.getD i 0) (P.S.getD (P.S.length - 2) 0) = P.S.getD (min i (P.S.length - 2)) 0 := by
    rcases le_total i (P.S.length - 2) with h | h
    · rw [min_eq_left h, min_eq_left (strictMono_get hS h (by omega))]
    · rw [min_eq_right h, min_eq_right (strictMono_get hS h hlt)]
  rw [hmin, idxOf_getD hS (by omega)]
  have hk : min i (P.S.length - 2) < P.K.length := by omega
  rw [List.getElem?_eq_getElem hk, getD_getElem _ hk]
  rfl

/-- C201.  With at least two candidates in increasing order, the choice exists: with a critical value
`θ`, the choice is the smallest candidate that does not differ significantly from any larger one (the
largest candidate passes trivially), capped at the second largest; the instruments are those of that
candidate. -/
theorem C201_rule (P : Lep) (hS : P.S.Pairwise (· < ·)) (hK : P.K.length = P.S.length) (h2 : 2 ≤ P.S.length)
    (hB : 1 ≤ P.B) (hq0 : 0 ≤ P.q) (hq1 : P.q ≤ 1) :
    ∃ θ i, P.theta = some θ ∧ i < P.S.length ∧ Passes P θ i ∧ (∀ i' < i, ¬ Passes P θ i') ∧
      P.run = some (P.S.getD (min i (P.S.length - 2)) 0, P.K.getD (min i (P.S.length - 2)) 0, θ) := by
  have hθ : ∃ θ, P.theta = some θ := by
    unfold Lep.theta
    rw [if_neg (fun h => by have := pairs_eq_nil.1 h; omega)]
    obtain ⟨v, hv, _⟩ := quantLower_isSome ((List.range P.B).map
      (fun b => ((pairs P.S.length).map (fun p => P.zb b p.1 p.2)).foldr max 0)) P.q
      (by simp; omega) hq0 hq1
    exact ⟨v, hv⟩
  obtain ⟨θ, hθ⟩ := hθ
  obtain ⟨h1, h3, h4⟩ := selIdx_spec P θ (by omega)
  exact ⟨θ, P.selIdx θ, hθ, h1, h3, h4, run_of_theta P hS hK h2 θ hθ⟩

/-- C201.  The largest candidate is never chosen. -/
theorem C201_not_largest (P : Lep) (hS : P.S.Pairwise (· < ·)) (hK : P.K.length = P.S.length)
    (h2 : 2 ≤ P.S.length) (r : ℕ × ℕ × ℝ≥0∞) (hr : P.run = some r) :
    r.1 ∈ P.S ∧ ∃ j ∈ P.S, r.1 < j := by
  have hθ : ∃ θ, P.theta = some θ := by
    cases e : P.theta with
    | some θ => exact ⟨θ, rfl⟩
    | none => simp [Lep.run, e] at hr
  obtain ⟨θ, hθ⟩ := hθ
  rw [run_of_theta P hS hK h2 θ hθ] at hr
  cases hr
  obtain ⟨i, hi⟩ : ∃ i, i = min (P.selIdx θ) (P.S.length - 2) := ⟨_, rfl⟩
  have hil : i < P.S.length := by omega
  have hil' : i + 1 < P.S.length := by omega
  dsimp only
  rw [← hi, getD_getElem _ hil]
  exact ⟨List.getElem_mem hil, _, List.getElem_mem hil',
    List.pairwise_iff_getElem.1 hS i (i + 1) hil hil' (by omega)⟩

/-- C201.  A larger critical value never leads to a larger candidate. -/
theorem C201_monotone (P : Lep) (hn : 1 ≤ P.S.length) (θ θ' : ℝ≥0∞) (h : θ ≤ θ') :
    P.selIdx θ' ≤ P.selIdx θ := by
  obtain ⟨_, h2, _⟩ := selIdx_spec P θ hn
  obtain ⟨_, _, h3'⟩ := selIdx_spec P θ' hn
  by_contra hc
  refine h3' _ (not_le.1 hc) (fun j h1 hj => (h2 j h1 hj).trans ?_)
  gcongr

/-- C201 violated.  With a single candidate the comparison raises instead of returning it, and `npiv`
falls back to the default number of segments, between three and ten: never the single candidate left, which is
one segment. -/
theorem C201_single_violated (P : Lep) (n degree p : ℕ) (h1 : P.S = [1]) :
    P.run = none ∧ 3 ≤ (npivSegments P n degree p).1 ∧ (npivSegments P n degree p).1 ≤ 10 ∧ (npivSegments P n degree p).1 ∉ P.S := by
  have hr : P.run = none := by
    have : P.theta = none := by
      unfold Lep.theta
      rw [if_pos (pairs_eq_nil.2 (by simp [h1]))]
    simp [Lep.run, this]
  have : 3 ≤ (npivSegments P n degree p).1 := by
    simp [npivSegments, hr]
  refine ⟨hr, this, by simp [npivSegments, hr], ?_⟩
  rw [h1]
  simp
  omega

/-- A small run: candidates 1, 2, 4; one and two segments differ, all else agrees. -/
noncomputable def exLep : Lep where
  S := [1, 2, 4]
  K := [4, 8, 16]
  cmp := fun i j => if i = 0 ∧ j = 1 then some (3, fun _ => 1) else some (1, fun _ => 1)
  B := 1
  q := 1 / 2

theorem exLep_theta : exLep.theta = some 1 := by
  unfold Lep.theta
  rw [if_neg (by decide)]
  have hp : pairs exLep.S.length = [(0, 1), (0, 2), (1, 2)] := by decide
  rw [hp]
  simp [exLep, Lep.zb, quantLower]

example : exLep.run = some (2, 8, 1) := by
  have h := run_of_theta exLep (by decide) rfl (by decide) 1 exLep_theta
  have hlen : exLep.S.length = 3 := rfl
  obtain ⟨h1, h2, h3⟩ := selIdx_spec exLep 1 (by decide)
  have n0 : ¬ Passes exLep 1 0 := by
    intro hc
    have h := hc 1 (by omega) (by omega)
    have h' : (3 : ℝ≥0∞) ≤ 11 / 10 * 1 := by simpa [exLep, Lep.z] using h
    rw [mul_one, ENNReal.le_div_iff_mul_le (by simp) (by simp)] at h'
    norm_num at h'
  have p1 : Passes exLep 1 1 := by
    intro j hj hj2
    have : j = 2 := by omega
    subst this
    have : exLep.z 1 2 = 1 := by simp [exLep, Lep.z]
    rw [this, mul_one, ENNReal.le_div_iff_mul_le (by simp) (by simp)]
    norm_num
  have hsel : exLep.selIdx 1 = 1 := by
    have : ¬ 1 < exLep.selIdx 1 := fun hc => h3 1 hc p1
    have : exLep.selIdx 1 ≠ 0 := fun hc => n0 (hc ▸ h2)
    omega
  rw [h, hsel]
  simp [exLep]

/-! ## A failed comparison -/

theorem foldr_max_top (l : List ℝ≥0∞) (h : ⊤ ∈ l) : l.foldr max 0 = ⊤ := by
  induction l with
  | nil => simp at h
  | cons a l ih =>
    rw [List.foldr_cons]
    rcases List.mem_cons.1 h with h | h
    · rw [← h]; exact top_sup_eq _
    · rw [ih h]; exact sup_top_eq _

/-- C202 violated.  If the fits of a single pair of candidates fail, the smallest candidate is chosen,
whatever the other comparisons say; the critical value is infinite. -/
theorem C202_failed_pair_violated (P : Lep) (hS : P.S.Pairwise (· < ·)) (hK : P.K.length = P.S.length)
    (hB : 1 ≤ P.B) (hq0 : 0 ≤ P.q) (hq1 : P.q ≤ 1) (i j : ℕ) (hij : i < j) (hj : j < P.S.length)
    (hfail : P.cmp i j = none) :
    P.run = some (P.S.getD 0 0, P.K.getD 0 0, ⊤) := by
  have hrow : ∀ b, ((pairs P.S.length).map (fun p => P.zb b p.1 p.2)).foldr max 0 = ⊤ := by
    intro b
    apply foldr_max_top
    refine List.mem_map.2 ⟨(i, j), mem_pairs.2 ⟨hij, hj⟩, ?_⟩
    simp [Lep.zb, hfail]
  obtain ⟨θ, k, hθ, hk, hpass, hmin, hrun⟩ := C201_rule P hS hK (by omega) hB hq0 hq1
  have htop : θ = ⊤ := by
    unfold Lep.theta at hθ
    rw [if_neg (fun h => by have := pairs_eq_nil.1 h; omega), funext hrow] at hθ
    obtain ⟨v, hv, hm⟩ := quantLower_isSome ((List.range P.B).map (fun _ => (⊤ : ℝ≥0∞))) P.q
      (by simp; omega) hq0 hq1
    rw [hv] at hθ
    cases hθ
    obtain ⟨_, _, h⟩ := List.mem_map.1 hm
    exact h.symm
  have hk0 : k = 0 := by
    by_contra hne
    refine hmin 0 (by omega) (fun j _ _ => ?_)
    rw [htop, ENNReal.mul_top (by simp)]
    exact le_top
  rw [hrun, hk0, htop, Nat.zero_min]

/-- C202.  The band that accompanies such a choice is infinitely wide (for sieves of dimension three or
more). -/
theorem C202_infinite_band (zStar : ℝ≥0∞) (J : ℕ) (hJ : 3 ≤ J) : cckCv zStar J ⊤ = ⊤ := by
  have h1 : (1 : ℝ) < Real.log J := by
    rw [Real.lt_log_iff_exp_lt (by positivity)]
    have : (3 : ℝ) ≤ J := by exact_mod_cast hJ
    have := Real.exp_one_lt_d9
    linarith
  have h2 : 0 < max 0 (Real.log (Real.log J)) := lt_max_of_lt_right (Real.log_pos h1)
  unfold cckCv
  rw [ENNReal.mul_top (by simpa using h2), add_top]

/-- The run above, with the comparison of two and four segments failed. -/
noncomputable def exFail : Lep where
  S := [1, 2, 4]
  K := [4, 8, 16]
  cmp := fun i j => if i = 0 ∧ j = 1 then some (3, fun _ => 1) else if i = 1 ∧ j = 2 then none
    else some (1, fun _ => 1)
  B := 99
  q := 1 / 2

example : exFail.run = some (1, 4, ⊤) :=
  C202_failed_pair_violated exFail (by decide) rfl (by decide) (by simp [exFail]) (by norm_num [exFail]) 1 2
    (by decide) (by decide) (by simp [exFail])

/-! ## Bounds and instruments -/

/-- C206.  Estimator and selection place the knots on the same interval unless the bound given is
exactly zero. -/
theorem C206_bounds (b : Option ℝ) (lo : ℝ) (h : b ≠ some 0) : selLow b lo = estLow b lo := by
  cases b with
  | none => rfl
  | some v =>
    have : v ≠ 0 := fun hc => h (by rw [hc])
    simp [selLow, estLow, this]

/-- C206 violated.  A bound of zero is used by the estimator and ignored by selection and band. -/
theorem C206_zero_violated (lo : ℝ) : estLow (some 0) lo = 0 ∧ selLow (some 0) lo = lo := by
  simp [selLow, estLow]

example : selLow (some (-1)) 2 = estLow (some (-1)) 2 ∧ selLow (some 0) 2 ≠ estLow (some 0) 2 := by
  refine ⟨C206_bounds _ _ (by norm_num), ?_⟩
  rw [(C206_zero_violated 2).1, (C206_zero_violated 2).2]
  norm_num

/-- C207.  With instruments different from the regressors, the variance of a comparison is computed with
the instruments of the fits compared. -/
theorem C207_instruments (dd : Bool) (jd j kd k : ℕ) :
    fitInstruments false dd jd j kd k = cmpInstruments kd k := rfl

/-- C207 violated.  In the regression case (`w = x`) the candidates compared are least-squares fits on
`j` segments of degree `jd`, while the variance is the one of an instrumental-variable fit with other
instruments, with more columns (as is the final fit the choice is used for), for every candidate of the grid as soon as `k_w_smooth > 0` and the
degree is not larger. -/
theorem C207_regression_violated (p smooth g : ℕ) (jd kd : ℕ) (hp : 1 ≤ p) (hjd : 1 ≤ jd) (hd : jd ≤ kd)
    (hs : 1 ≤ smooth) (i : ℕ) (hi : i < g) (j k : ℕ) (hj : (jSet g)[i]? = some j)
    (hk : (kSet smooth g)[i]? = some k) :
    fitInstruments true false jd j kd k = (jd, j) ∧
    fitInstruments true true jd j kd k ≠ fitInstruments true false jd j kd k ∧
    fitInstruments true false jd j kd k ≠ cmpInstruments kd k ∧
    prodCols .tensor (List.replicate p (jd, j - 1)) < prodCols .tensor (List.replicate p (kd, k - 1)) := by
  have hj' : j = 2 ^ i := by
    simp only [jSet, List.getElem?_map, List.getElem?_range hi, Option.map_some, Option.some.injEq] at hj
    exact hj.symm
  have hk' : k = 2 ^ (i + smooth) := by
    simp only [kSet, List.getElem?_map, List.getElem?_range hi, Option.map_some, Option.some.injEq] at hk
    exact hk.symm
  have hlt : j < k := by
    rw [hj', hk']
    exact Nat.pow_lt_pow_right (by norm_num) (by omega)
  have h1 : 1 ≤ j := by rw [hj']; exact Nat.one_le_two_pow
  refine ⟨rfl, ?_, ?_, ?_⟩
  · intro h
    have : k = j := congrArg Prod.snd h
    omega
  · intro h
    have : j = k := congrArg Prod.snd h
    omega
  · have cols : ∀ d s, 1 ≤ d → prodCols .tensor (List.replicate p (d, s)) = (d + s + 1) ^ p := by
      intro d s hd
      obtain ⟨p', rfl⟩ : ∃ p', p = p' + 1 := ⟨p - 1, by omega⟩
      unfold prodCols
      rw [active_replicate _ _ _ (by omega)]
      rw [combineRow_length_tensor _ (by simp)]
      simp [uniCols_eq _ _ (show 0 < (d, s).1 from hd)]
    rw [cols _ _ hjd, cols _ _ (by omega)]
    exact Nat.pow_lt_pow_left (by omega) (by omega)

example : fitInstruments true false 3 1 4 4 = (3, 1) ∧ cmpInstruments 4 4 = (4, 4) := by decide

end Verif.Npiv.Sel
