import Mathlib.Tactic.Linarith
import Mathlib.Data.List.GetD
import Mathlib.Data.Nat.Find
import Verif.Honest.Model

/-!
# The grid search of `compute_arp_nuisance_ci`: model and properties of `_binary_search_ci_bounds`
-/

set_option linter.unusedSectionVars false
set_option linter.unusedSimpArgs false

namespace Verif.Honest

/-! ## Model -/

/-- The accepted index of smallest distance to `mid`, left before right, `arp_nuisance.py:1237-1247`; `fuel` counts the remaining
values of `offset` in `range(1, n_points)`. -/
def seedLoop (test : ℕ → Bool) (n mid : ℕ) : ℕ → ℕ → Option ℕ
  | 0, _ => none
  | fuel + 1, off =>
    if off ≤ mid ∧ test (mid - off) = true then some (mid - off)
    else if mid + off < n ∧ test (mid + off) = true then some (mid + off)
    else if mid < off ∧ n ≤ mid + off then none
    else seedLoop test n mid fuel (off + 1)

/-- `seed_idx`, `arp_nuisance.py:1231-1247`. -/
def seedIdx (test : ℕ → Bool) (n : ℕ) : Option ℕ :=
  if test (n / 2) = true then some (n / 2) else seedLoop test n (n / 2) (n - 1) 1

/-- `while lo < hi: m = (lo + hi) // 2 ...`, `arp_nuisance.py:1254-1259`. -/
def bisectLow (test : ℕ → Bool) (lo hi : ℕ) : ℕ :=
  if lo < hi then
    if test ((lo + hi) / 2) = true then bisectLow test lo ((lo + hi) / 2) else bisectLow test ((lo + hi) / 2 + 1) hi
  else lo
termination_by hi - lo

/-- `while lo < hi: m = (lo + hi + 1) // 2 ...`, `arp_nuisance.py:1266-1271`. -/
def bisectUp (test : ℕ → Bool) (lo hi : ℕ) : ℕ :=
  if lo < hi then
    if test ((lo + hi + 1) / 2) = true then bisectUp test ((lo + hi + 1) / 2) hi else bisectUp test lo ((lo + hi + 1) / 2 - 1)
  else lo
termination_by hi - lo

/-- `_binary_search_ci_bounds`, `arp_nuisance.py:1216-1276`, for a test that does not raise; the outer `none` is the `IndexError` of
`test_fn(0)` on an empty grid, the inner one the result `(None, None)`. -/
def searchBounds (test : ℕ → Bool) (n : ℕ) : Option (Option (ℕ × ℕ)) :=
  if n = 0 then none
  else some ((seedIdx test n).map fun s =>
    (if s = 0 ∨ test 0 = false then bisectLow test 0 s else 0,
     if s = n - 1 ∨ test (n - 1) = false then bisectUp test s (n - 1) else n - 1))

/-! ## Lemmas -/

theorem seedLoop_some (test : ℕ → Bool) (n mid : ℕ) (hmid : mid < n) (fuel off s : ℕ) (h : seedLoop test n mid fuel off = some s) :
    s < n ∧ test s = true := by
  induction fuel generalizing off with
  | zero => simp [seedLoop] at h
  | succ f ih =>
    unfold seedLoop at h
    split_ifs at h with h1 h2 h3
    · cases h; exact ⟨by omega, h1.2⟩
    · cases h; exact h2
    · exact ih _ h

theorem seedLoop_none (test : ℕ → Bool) (n mid : ℕ) (fuel off : ℕ) (h : seedLoop test n mid fuel off = none) (i : ℕ) (hi : i < n)
    (h1 : i + off ≤ mid ∨ mid + off ≤ i) (h2 : mid < i + (off + fuel)) (h3 : i < mid + (off + fuel)) : test i = false := by
  induction fuel generalizing off with
  | zero => omega
  | succ f ih =>
    unfold seedLoop at h
    split_ifs at h with g1 g2 g3
    · omega
    · by_cases e1 : i + off = mid
      · have : i = mid - off := by omega
        subst this
        cases ht : test (mid - off) with
        | true => exact absurd ⟨by omega, ht⟩ g1
        | false => rfl
      · by_cases e2 : mid + off = i
        · subst e2
          cases ht : test (mid + off) with
          | true => exact absurd ⟨hi, ht⟩ g2
          | false => rfl
        · exact ih (off + 1) h (by omega) (by omega) (by omega)

theorem seedIdx_some (test : ℕ → Bool) (n : ℕ) (hn : 0 < n) (s : ℕ) (h : seedIdx test n = some s) : s < n ∧ test s = true := by
  unfold seedIdx at h
  split_ifs at h with h1
  · cases h; exact ⟨by omega, h1⟩
  · exact seedLoop_some test n _ (by omega) _ _ s h

theorem seedIdx_none (test : ℕ → Bool) (n : ℕ) (h : seedIdx test n = none) (i : ℕ) (hi : i < n) : test i = false := by
  unfold seedIdx at h
  split_ifs at h with h1
  by_cases e : i = n / 2
  · subst e; simpa using h1
  · exact seedLoop_none test n _ _ _ h i hi (by omega) (by omega) (by omega)

theorem bisectLow_spec (test : ℕ → Bool) (lo hi : ℕ) (hle : lo ≤ hi) (ht : test hi = true) (h0 : lo = 0 ∨ test (lo - 1) = false) :
    lo ≤ bisectLow test lo hi ∧ bisectLow test lo hi ≤ hi ∧ test (bisectLow test lo hi) = true ∧
      (bisectLow test lo hi = 0 ∨ test (bisectLow test lo hi - 1) = false) := by
  induction lo, hi using bisectLow.induct test with
  | case1 lo hi h1 h2 ih =>
    rw [bisectLow, if_pos h1, if_pos h2]
    have := ih (by omega) h2 h0
    refine ⟨this.1, ?_, this.2.2⟩
    omega
  | case2 lo hi h1 h2 ih =>
    rw [bisectLow, if_pos h1, if_neg h2]
    have := ih (by omega) ht (Or.inr (by simpa using h2))
    refine ⟨?_, this.2⟩
    omega
  | case3 lo hi h1 =>
    rw [bisectLow, if_neg h1]
    have : lo = hi := by omega
    subst this
    exact ⟨le_rfl, le_rfl, ht, h0⟩

theorem bisectUp_spec (test : ℕ → Bool) (n lo hi : ℕ) (hle : lo ≤ hi) (ht : test lo = true) (h0 : hi = n - 1 ∨ test (hi + 1) = false) :
    lo ≤ bisectUp test lo hi ∧ bisectUp test lo hi ≤ hi ∧ test (bisectUp test lo hi) = true ∧
      (bisectUp test lo hi = n - 1 ∨ test (bisectUp test lo hi + 1) = false) := by
  induction lo, hi using bisectUp.induct test with
  | case1 lo hi h1 h2 ih =>
    rw [bisectUp, if_pos h1, if_pos h2]
    have := ih (by omega) h2 h0
    refine ⟨?_, this.2⟩
    omega
  | case2 lo hi h1 h2 ih =>
    rw [bisectUp, if_pos h1, if_neg h2]
    have := ih (by omega) ht (Or.inr (by
      rw [Nat.sub_add_cancel (by omega)]
      simpa using h2))
    refine ⟨this.1, ?_, this.2.2⟩
    omega
  | case3 lo hi h1 =>
    rw [bisectUp, if_neg h1]
    have : lo = hi := by omega
    subst this
    exact ⟨le_rfl, le_rfl, ht, h0⟩

theorem low_stop (test : ℕ → Bool) (a : ℕ) : bisectLow test a a = a := by rw [bisectLow, if_neg (lt_irrefl _)]

theorem low_step (test : ℕ → Bool) (a b m : ℕ) (h : a < b) (hm : (a + b) / 2 = m) :
    bisectLow test a b = if test m = true then bisectLow test a m else bisectLow test (m + 1) b := by
  subst hm
  rw [bisectLow, if_pos h]

theorem up_stop (test : ℕ → Bool) (a : ℕ) : bisectUp test a a = a := by rw [bisectUp, if_neg (lt_irrefl _)]

theorem up_step (test : ℕ → Bool) (a b m : ℕ) (h : a < b) (hm : (a + b + 1) / 2 = m) :
    bisectUp test a b = if test m = true then bisectUp test m b else bisectUp test a (m - 1) := by
  subst hm
  rw [bisectUp, if_pos h]

/-! ## C163 -/

/-- No grid point between two accepted ones is rejected. -/
def Contiguous (test : ℕ → Bool) (n : ℕ) : Prop :=
  ∀ i j k, i ≤ j → j ≤ k → k < n → test i = true → test k = true → test j = true

/-- C163.  On a non-empty grid the search ends with a result; it is `(None, None)` exactly if every grid point is rejected; otherwise
both ends are accepted grid points, in order, and the next grid point outside is rejected or there is none. -/
theorem C163_ends (test : ℕ → Bool) (n : ℕ) (hn : 0 < n) :
    ∃ r, searchBounds test n = some r ∧ (r = none ↔ ∀ i < n, test i = false) ∧
      ∀ lb ub, r = some (lb, ub) → lb ≤ ub ∧ ub < n ∧ test lb = true ∧ test ub = true ∧
        (lb = 0 ∨ test (lb - 1) = false) ∧ (ub = n - 1 ∨ test (ub + 1) = false) := by
  refine ⟨_, by rw [searchBounds, if_neg hn.ne'], ?_, ?_⟩
  · rw [Option.map_eq_none_iff]
    refine ⟨fun h i hi => seedIdx_none test n h i hi, fun h => ?_⟩
    cases hs : seedIdx test n with
    | none => rfl
    | some s =>
      obtain ⟨h1, h2⟩ := seedIdx_some test n hn s hs
      rw [h s h1] at h2
      cases h2
  · intro lb ub h
    rw [Option.map_eq_some_iff] at h
    obtain ⟨s, hs, h⟩ := h
    obtain ⟨h1, h2⟩ := seedIdx_some test n hn s hs
    have hL := bisectLow_spec test 0 s (by omega) h2 (Or.inl rfl)
    have hU := bisectUp_spec test n s (n - 1) (by omega) h2 (Or.inl rfl)
    rw [Prod.mk.injEq] at h
    obtain ⟨e1, e2⟩ := h
    have a : lb ≤ s ∧ test lb = true ∧ (lb = 0 ∨ test (lb - 1) = false) := by
      rw [← e1]
      split_ifs with g
      · exact hL.2
      · push Not at g
        exact ⟨by omega, by simpa using g.2, Or.inl rfl⟩
    have b : s ≤ ub ∧ ub < n ∧ test ub = true ∧ (ub = n - 1 ∨ test (ub + 1) = false) := by
      rw [← e2]
      split_ifs with g
      · exact ⟨hU.1, by omega, hU.2.2⟩
      · push Not at g
        exact ⟨by omega, by omega, by simpa using g.2, Or.inl rfl⟩
    exact ⟨by omega, b.2.1, a.2.1, b.2.2.1, a.2.2, b.2.2.2⟩

/-- C163.  If the accepted grid points are contiguous, the reported index range is exactly the set of accepted grid points. -/
theorem C163_exact (test : ℕ → Bool) (n : ℕ) (hn : 0 < n) (hc : Contiguous test n) (r : Option (ℕ × ℕ))
    (h : searchBounds test n = some r) (i : ℕ) (hi : i < n) : test i = true ↔ ∃ lb ub, r = some (lb, ub) ∧ lb ≤ i ∧ i ≤ ub := by
  obtain ⟨r', h', h1, h2⟩ := C163_ends test n hn
  rw [h] at h'
  cases h'
  cases r with
  | none =>
    have := h1.1 rfl i hi
    simp [this]
  | some x =>
    obtain ⟨lb, ub⟩ := x
    obtain ⟨a1, a2, a3, a4, a5, a6⟩ := h2 lb ub rfl
    constructor
    · intro ht
      refine ⟨lb, ub, rfl, ?_, ?_⟩
      · by_contra hlt
        rcases a5 with e | e
        · omega
        · have := hc i (lb - 1) lb (by omega) (by omega) (by omega) ht a3
          rw [e] at this
          cases this
      · by_contra hlt
        rcases a6 with e | e
        · omega
        · have := hc ub (ub + 1) i (by omega) (by omega) hi a4 ht
          rw [e] at this
          cases this
    · rintro ⟨lb', ub', e, g1, g2⟩
      cases e
      exact hc lb i ub g1 g2 a2 a3 a4

/-- Accepted grid points 2 to 4 of 7. -/
example : searchBounds (fun i => decide (2 ≤ i ∧ i ≤ 4)) 7 = some (some (2, 4)) ∧ Contiguous (fun i => decide (2 ≤ i ∧ i ≤ 4)) 7 := by
  refine ⟨?_, ?_⟩
  · have e1 : seedIdx (fun i => decide (2 ≤ i ∧ i ≤ 4)) 7 = some 3 := by decide
    rw [searchBounds, if_neg (by decide), e1]
    rw [Option.map_some, if_pos (by decide), if_pos (by decide), low_step _ 0 3 1 (by decide) rfl, if_neg (by decide),
      low_step _ 2 3 2 (by decide) rfl, if_pos (by decide), low_stop, up_step _ 3 6 5 (by decide) rfl, if_neg (by decide),
      up_step _ 3 4 4 (by decide) rfl, if_pos (by decide), up_stop]
  · intro i j k h1 h2 h3 h4 h5
    simp only [decide_eq_true_eq] at *
    omega

/-- C163 (violated).  In general the reported range is neither a subset nor a superset of the accepted grid points: with accepted
points 0 and 2 and a rejected point 1 the rejected point is reported as accepted; with accepted points 1 and 4 of 7 the accepted
point 1 is left out. -/
theorem C163_gap_violated :
    (searchBounds (fun i => decide (i = 0 ∨ i = 2)) 3 = some (some (0, 2)) ∧ (fun i : ℕ => decide (i = 0 ∨ i = 2)) 1 = false) ∧
      (searchBounds (fun i => decide (i = 1 ∨ i = 4)) 7 = some (some (4, 4)) ∧ (fun i : ℕ => decide (i = 1 ∨ i = 4)) 1 = true) := by
  refine ⟨⟨?_, by decide⟩, ⟨?_, by decide⟩⟩
  · have e1 : seedIdx (fun i => decide (i = 0 ∨ i = 2)) 3 = some 0 := by decide
    rw [searchBounds, if_neg (by decide), e1]
    rw [Option.map_some, if_pos (by decide), if_neg (by decide), low_stop]
  · have e1 : seedIdx (fun i => decide (i = 1 ∨ i = 4)) 7 = some 4 := by decide
    rw [searchBounds, if_neg (by decide), e1]
    rw [Option.map_some, if_pos (by decide), if_pos (by decide), low_step _ 0 4 2 (by decide) rfl, if_neg (by decide),
      low_step _ 3 4 3 (by decide) rfl, if_neg (by decide), low_stop,
      up_step _ 4 6 5 (by decide) rfl, if_neg (by decide), up_stop]

end Verif.Honest
