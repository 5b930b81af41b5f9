import Verif.Honest.Props

/-!
# C62: relative magnitudes
-/

set_option linter.unusedSectionVars false
set_option linter.unusedSimpArgs false

namespace Verif.Honest

open Finset

variable {K : Type*} [Field K] [LinearOrder K] [IsStrictOrderedRing K]

/-- Sign as a number. -/
def sgn (b : Bool) : K := if b then 1 else -1

/-- The polyhedron for reference difference `s0` and sign `b`: pre-treatment differences are at most the signed reference
difference, post-treatment ones at most `Mbar` times it. -/
def PolyRM (p q : ℕ) (mbar : K) (s0 : ℕ) (b : Bool) (v : ℕ → K) : Prop :=
  (∀ r < p, |D1 (full p v) r| ≤ sgn b * D1 (full p v) s0) ∧
    ∀ t, p ≤ t → t < p + q → |D1 (full p v) t| ≤ mbar * (sgn b * D1 (full p v) s0)

/-- The same for second differences. -/
def PolySDRM (p q : ℕ) (mbar : K) (s0 : ℕ) (b : Bool) (v : ℕ → K) : Prop :=
  (∀ r, r + 2 ≤ p → |D2 (full p v) r| ≤ sgn b * D2 (full p v) s0) ∧
    ∀ t, p + 1 ≤ t + 2 → t + 2 ≤ p + q → |D2 (full p v) t| ≤ mbar * (sgn b * D2 (full p v) s0)

theorem sgn_ne (b : Bool) : (sgn b : K) = 1 ∨ (sgn b : K) = -1 := by cases b <;> simp [sgn]

theorem signed_apply (b : Bool) (a : ℕ → K) (j : ℕ) : signed b a j = sgn b * a j := by
  cases b <;> simp [signed, sgn]

theorem first_apply (r j : ℕ) : (setSlice r [-1, 1] fun _ => (0 : K)) j = if j = r + 1 then 1 else if j = r then -1 else 0 := by
  rw [setSlice_two]; rfl

theorem second_apply (r j : ℕ) : (setSlice r [1, -2, 1] fun _ => (0 : K)) j =
    if j = r + 2 then 1 else if j = r + 1 then -2 else if j = r then 1 else 0 := by
  rw [setSlice_three]; rfl

/-- Every row of the first-difference stack is zero or has an entry of absolute value at least one, for a reference difference
among the pre-treatment ones. -/
theorem rm_rows (p q s0 i : ℕ) (hs : s0 < p) (hi : i < p + q) (mbar c : K) (b : Bool) (hc : c = 1 ∨ c = -1) :
    (∀ j, c * (setSlice i [-1, 1] fun _ => (0 : K)) j -
        (if i < p then signed b (setSlice s0 [-1, 1] fun _ => 0) else
          fun j => mbar * signed b (setSlice s0 [-1, 1] fun _ => 0) j) j = 0) ∨
      ∃ j < p + q + 1, 1 ≤ |c * (setSlice i [-1, 1] fun _ => (0 : K)) j -
        (if i < p then signed b (setSlice s0 [-1, 1] fun _ => 0) else
          fun j => mbar * signed b (setSlice s0 [-1, 1] fun _ => 0) j) j| := by
  have habs : |c| = 1 := by rcases hc with rfl | rfl <;> simp
  rcases Nat.lt_trichotomy i s0 with h | h | h
  · right
    refine ⟨i, by omega, ?_⟩
    rw [if_pos (by omega), signed_apply, first_apply, first_apply, if_neg (by omega), if_pos rfl, if_neg (by omega),
      if_neg (by omega)]
    simp [habs]
  · subst h
    rw [if_pos hs]
    have e : ∀ j, c * (setSlice i [-1, 1] fun _ => (0 : K)) j - signed b (setSlice i [-1, 1] fun _ => 0) j =
        (c - sgn b) * (setSlice i [-1, 1] fun _ => (0 : K)) j := by
      intro j; rw [signed_apply]; ring
    by_cases hz : c = sgn b
    · left; intro j; rw [e, hz]; ring
    · right
      refine ⟨i + 1, by omega, ?_⟩
      rw [e, first_apply, if_pos rfl, mul_one]
      rcases hc with rfl | rfl <;> rcases sgn_ne (K := K) b with h2 | h2 <;> rw [h2] at hz ⊢
      · exact absurd rfl hz
      · norm_num
      · norm_num
      · exact absurd rfl hz
  · right
    refine ⟨i + 1, by omega, ?_⟩
    have h0 : signed b (setSlice s0 [-1, 1] fun _ => (0 : K)) (i + 1) = 0 := by
      rw [signed_apply, first_apply, if_neg (by omega), if_neg (by omega), mul_zero]
    rw [first_apply, if_pos rfl]
    split_ifs
    · rw [h0]; simp [habs]
    · beta_reduce; rw [h0]; simp [habs]

theorem toNat_s0 (p : ℕ) (s : ℤ) (s0 : ℕ) (h : (p : ℤ) + s = s0) : ((p : ℤ) + s).toNat = s0 := by omega

/-- C62.  For a reference difference before the treatment (`s = s0 - p`), `A delta <= 0` says exactly: pre-treatment differences
are at most the signed reference difference and post-treatment ones at most `Mbar` times it; removing the numerically zero
rows loses nothing. -/
theorem C62_rm_fixed (tol : K) (h0 : 0 ≤ tol) (h1 : tol < 1) (p q : ℕ) (mbar : K) (s : ℤ) (s0 : ℕ) (hs : (p : ℤ) + s = s0)
    (hs0 : s0 < p) (b : Bool) (v : ℕ → K) :
    Sat (p + q) (rmMatrix tol p q mbar s b) 0 v ↔ PolyRM p q mbar s0 b v := by
  unfold rmMatrix
  simp only [toNat_s0 p s s0 hs]
  set vm := signed b (setSlice s0 [-1, 1] fun _ => (0 : K)) with hvm
  have hub := ubRows_eq p q mbar vm
  have hfd : firstDiffPy p q = (List.range (p + q)).map fun r => setSlice r [-1, 1] fun _ => (0 : K) := rfl
  rw [hub, hfd]
  have step : Sat (p + q) ((dropZeroRows (p + q + 1) tol (absStack ((List.range (p + q)).map fun r => setSlice r [-1, 1] fun _ => (0 : K))
      ((List.range (p + q)).map fun r => if r < p then vm else fun j => mbar * vm j))).map (delCol p)) 0 v ↔
      ∀ a ∈ dropZeroRows (p + q + 1) tol (absStack ((List.range (p + q)).map fun r => setSlice r [-1, 1] fun _ => (0 : K))
      ((List.range (p + q)).map fun r => if r < p then vm else fun j => mbar * vm j)), dotN (p + q + 1) a (full p v) ≤ 0 := by
    unfold Sat
    simp only [List.mem_map, forall_exists_index, and_imp, forall_apply_eq_imp_iff₂, dotN_delCol]
  rw [step, sat_dropZero (p + q + 1) tol _ ?_ (fun a => dotN (p + q + 1) a (full p v)) ?_, sat_absStack]
  · constructor
    · intro h
      constructor
      · intro r hr
        have := h r (by omega)
        rw [dotN_first _ _ _ (by omega), if_pos hr, hvm, dotN_signed, dotN_first _ _ _ (by omega)] at this
        exact this
      · intro t ht1 ht2
        have := h t ht2
        rw [dotN_first _ _ _ (by omega), if_neg (by omega), dotN_smul, hvm, dotN_signed, dotN_first _ _ _ (by omega)] at this
        exact this
    · rintro ⟨h2, h3⟩ i hi
      rw [dotN_first _ _ _ (by omega)]
      by_cases hp : i < p
      · rw [if_pos hp, hvm, dotN_signed, dotN_first _ _ _ (by omega)]
        exact h2 i hp
      · rw [if_neg hp, dotN_smul, hvm, dotN_signed, dotN_first _ _ _ (by omega)]
        exact h3 i (by omega) hi
  · intro a ha hsmall
    rw [absStack_eq] at ha
    simp only [List.mem_append, List.mem_map, List.mem_range] at ha
    rcases ha with ⟨i, hi, rfl⟩ | ⟨i, hi, rfl⟩
    · rcases rm_rows p q s0 i hs0 hi mbar 1 b (Or.inl rfl) with hz | ⟨j, hj, hbig⟩
      · intro j _; have := hz j; rw [one_mul] at this; exact this
      · have := hsmall j hj
        rw [one_mul] at hbig
        exact absurd (lt_of_lt_of_le h1 hbig) (not_lt.2 this)
    · rcases rm_rows p q s0 i hs0 hi mbar (-1) b (Or.inr rfl) with hz | ⟨j, hj, hbig⟩
      · intro j _; have := hz j; rw [neg_one_mul] at this; exact this
      · have := hsmall j hj
        rw [neg_one_mul] at hbig
        exact absurd (lt_of_lt_of_le h1 hbig) (not_lt.2 this)
  · intro a _ hz
    unfold dotN
    exact le_of_eq (sum_eq_zero fun j hj => by rw [hz j (mem_range.1 hj), zero_mul])

/-- The union of the polyhedra over ALL pre-treatment differences and both signs is the documented set. -/
theorem C62_union (p q : ℕ) (mbar : K) (v : ℕ → K) :
    v ∈ DeltaRM p q mbar ↔ ∃ s0 < p, ∃ b, PolyRM p q mbar s0 b v := by
  constructor
  · rintro ⟨s0, hs, h1, h2⟩
    refine ⟨s0, hs, decide (0 ≤ D1 (full p v) s0), ?_⟩
    have e : (sgn (decide (0 ≤ D1 (full p v) s0)) : K) * D1 (full p v) s0 = |D1 (full p v) s0| := by
      by_cases h : 0 ≤ D1 (full p v) s0
      · simp [sgn, h, abs_of_nonneg h]
      · have := abs_of_neg (lt_of_not_ge h)
        simp [sgn, h, this]
    unfold PolyRM
    rw [e]
    exact ⟨h1, h2⟩
  · rintro ⟨s0, hs, b, h1, h2⟩
    have e : sgn b * D1 (full p v) s0 = |D1 (full p v) s0| := by
      refine le_antisymm ?_ (h1 s0 hs)
      rcases sgn_ne (K := K) b with h | h <;> rw [h]
      · rw [one_mul]; exact le_abs_self _
      · rw [neg_one_mul]; exact neg_le_abs _
    refine ⟨s0, hs, ?_, ?_⟩
    · intro r hr; rw [← e]; exact h1 r hr
    · intro t ht ht'; rw [← e]; exact h2 t ht ht'

/-- C62.  What the search of `compute_identified_set_rm` and `compute_conditional_cs_rm` covers: the paths whose largest
pre-treatment change is NOT only the first one. -/
theorem C62_rm_search (tol : K) (h0 : 0 ≤ tol) (h1 : tol < 1) (p q : ℕ) (mbar : K) (v : ℕ → K) :
    (∃ s ∈ sRangeRM p, ∃ b, Sat (p + q) (rmMatrix tol p q mbar s b) 0 v) ↔
      ∃ s0, 1 ≤ s0 ∧ s0 < p ∧ ∃ b, PolyRM p q mbar s0 b v := by
  unfold sRangeRM
  simp only [List.mem_map, List.mem_range]
  constructor
  · rintro ⟨s, ⟨k, hk, rfl⟩, b, h⟩
    refine ⟨k + 1, by omega, by omega, b, (C62_rm_fixed tol h0 h1 p q mbar _ (k + 1) (by push_cast; ring) (by omega) b v).1 h⟩
  · rintro ⟨s0, hs1, hs2, b, h⟩
    refine ⟨(s0 : ℤ) - p, ⟨s0 - 1, by omega, by omega⟩, b,
      (C62_rm_fixed tol h0 h1 p q mbar _ s0 (by ring) hs2 b v).2 h⟩

/-- C62 (violated).  For every number of periods with at least two pre-periods and every `Mbar >= 0`, the path that moves only
between the first two pre-periods belongs to the documented set but to none of the polyhedra searched. -/
theorem C62_rm_violated (tol : K) (h0 : 0 ≤ tol) (h1 : tol < 1) (p q : ℕ) (hp : 2 ≤ p) (mbar : K) (hm : 0 ≤ mbar) (c : K)
    (hc : c ≠ 0) :
    (fun j => if j = 0 then c else 0) ∈ DeltaRM p q mbar ∧
    ¬ ∃ s ∈ sRangeRM p, ∃ b, Sat (p + q) (rmMatrix tol p q mbar s b) 0 (fun j => if j = 0 then c else 0) := by
  have hf : ∀ j, full p (fun j => if j = 0 then c else 0) j = if j = 0 then c else 0 := by
    intro j
    unfold full
    rcases Nat.lt_trichotomy j p with h | h | h
    · rw [if_pos h]
    · rw [if_neg (by omega), if_pos h, if_neg (by omega)]
    · rw [if_neg (by omega), if_neg (by omega)]
      beta_reduce
      rw [if_neg (by omega), if_neg (by omega)]
  have hD : ∀ r, D1 (full p (fun j => if j = 0 then c else 0)) r = if r = 0 then -c else 0 := by
    intro r
    unfold D1
    rw [hf, hf, if_neg (by omega)]
    by_cases h : r = 0
    · rw [if_pos h, if_pos h]; ring
    · rw [if_neg h, if_neg h]; ring
  constructor
  · refine ⟨0, by omega, ?_, ?_⟩
    · intro r _
      rw [hD, hD, if_pos rfl]
      by_cases h : r = 0
      · rw [if_pos h]
      · rw [if_neg h, abs_zero]; exact abs_nonneg _
    · intro t ht _
      rw [hD, hD, if_pos rfl, if_neg (by omega), abs_zero]
      exact mul_nonneg hm (abs_nonneg _)
  · rw [C62_rm_search tol h0 h1]
    rintro ⟨s0, hs1, hs2, b, h, _⟩
    have := h 0 (by omega)
    rw [hD, hD, if_pos rfl, if_neg (by omega), mul_zero, abs_neg] at this
    exact hc (abs_nonpos_iff.1 this)

/-- C62, the row for reference `s = 0` in the variants with sign or monotonicity restrictions: the reference difference is the
first POST-treatment one. -/
theorem rmb_zero_mem (p : ℕ) (hp : 1 ≤ p) : (0 : ℤ) ∈ sRangeRMB p := by
  unfold sRangeRMB
  simp only [List.mem_map, List.mem_range]
  exact ⟨p - 1, by omega, by omega⟩

/-- C62 (violated).  The search of `compute_*_rmb` and `compute_*_rmm` starts at the second pre-treatment difference and ends at
the first POST-treatment one.  For `Mbar >= 1` it therefore admits the path that is zero before the treatment and jumps to any
`c > 0` afterwards (which is also positive and increasing), although the documented set contains no such path. -/
theorem C62_rmb_violated (tol : K) (p q : ℕ) (hp : 1 ≤ p) (hq : 1 ≤ q) (mbar : K) (hm : 1 ≤ mbar) (c : K)
    (hc : 0 < c) :
    (fun j => if j < p then 0 else c) ∉ DeltaRM p q mbar ∧
    (∃ s ∈ sRangeRMB p, ∃ b, Sat (p + q) (rmMatrix tol p q mbar s b) 0 (fun j => if j < p then 0 else c)) ∧
    (∀ k < q, 0 ≤ (fun j => if j < p then 0 else c) (p + k)) ∧ Increasing p q (fun j => if j < p then 0 else c) := by
  have hf : ∀ j, full p (fun j => if j < p then 0 else c) j = if j ≤ p then 0 else c := by
    intro j
    unfold full
    rcases Nat.lt_trichotomy j p with h | h | h
    · rw [if_pos h, if_pos h.le]; beta_reduce; rw [if_pos h]
    · rw [if_neg (by omega), if_pos h, if_pos h.le]
    · rw [if_neg (by omega), if_neg (by omega), if_neg (by omega)]
      beta_reduce
      rw [if_neg (by omega)]
  have hD : ∀ r, D1 (full p (fun j => if j < p then 0 else c)) r = if r = p then c else 0 := by
    intro r
    unfold D1
    rw [hf, hf]
    rcases Nat.lt_trichotomy r p with h | h | h
    · rw [if_pos (by omega), if_pos (by omega), if_neg (by omega), sub_zero]
    · rw [if_neg (by omega), if_pos (by omega), if_pos h, sub_zero]
    · rw [if_neg (by omega), if_neg (by omega), if_neg (by omega), sub_self]
  refine ⟨?_, ⟨0, rmb_zero_mem p hp, true, ?_⟩, ?_, ?_⟩
  · rintro ⟨s0, hs, _, h⟩
    have := h p le_rfl (by omega)
    rw [hD, hD, if_pos rfl, if_neg (by omega), abs_zero, mul_zero] at this
    exact hc.ne' (abs_nonpos_iff.1 this)
  · unfold rmMatrix
    have hn : ((p : ℤ) + 0).toNat = p := by omega
    simp only [hn]
    rw [ubRows_eq]
    intro a ha
    simp only [List.mem_map, dropZeroRows, List.mem_filter] at ha
    obtain ⟨a', ⟨ha', _⟩, rfl⟩ := ha
    rw [dotN_delCol]
    have hfd : firstDiffPy p q = (List.range (p + q)).map fun r => setSlice r [-1, 1] fun _ => (0 : K) := rfl
    rw [hfd] at ha'
    refine (sat_absStack (p + q + 1) (p + q) _ _ _).2 ?_ a' ha'
    intro i hi
    rw [dotN_first _ _ _ (by omega), hD]
    by_cases h : i < p
    · rw [if_pos h, dotN_signed, dotN_first _ _ _ (by omega), hD, if_neg (by omega), if_pos rfl, abs_zero]
      simp [hc.le]
    · rw [if_neg h, dotN_smul, dotN_signed, dotN_first _ _ _ (by omega), hD, if_pos rfl]
      simp only [if_true, one_mul]
      by_cases h' : i = p
      · rw [if_pos h', abs_of_pos hc]
        nlinarith
      · rw [if_neg h', abs_zero]
        exact mul_nonneg (by linarith) hc.le
  · intro k _
    show 0 ≤ if p + k < p then (0 : K) else c
    rw [if_neg (by omega)]; exact hc.le
  · intro r _
    rw [hf, hf]
    split_ifs <;> first | exact le_rfl | exact hc.le | omega

/-! ### Second differences -/

theorem sdrm_rows (p q s0 i : ℕ) (hs : s0 + 2 ≤ p) (hi : i + 2 ≤ p + q) (mbar c : K) (b : Bool) (hc : c = 1 ∨ c = -1) :
    (∀ j, c * (setSlice i [1, -2, 1] fun _ => (0 : K)) j -
        (if i < p - 1 then signed b (setSlice s0 [1, -2, 1] fun _ => 0) else
          fun j => mbar * signed b (setSlice s0 [1, -2, 1] fun _ => 0) j) j = 0) ∨
      ∃ j < p + q + 1, 1 ≤ |c * (setSlice i [1, -2, 1] fun _ => (0 : K)) j -
        (if i < p - 1 then signed b (setSlice s0 [1, -2, 1] fun _ => 0) else
          fun j => mbar * signed b (setSlice s0 [1, -2, 1] fun _ => 0) j) j| := by
  have habs : |c| = 1 := by rcases hc with rfl | rfl <;> simp
  rcases Nat.lt_trichotomy i s0 with h | h | h
  · right
    refine ⟨i, by omega, ?_⟩
    rw [if_pos (by omega), signed_apply, second_apply, second_apply, if_neg (by omega), if_neg (by omega), if_pos rfl,
      if_neg (by omega), if_neg (by omega), if_neg (by omega)]
    simp [habs]
  · subst h
    rw [if_pos (by omega)]
    have e : ∀ j, c * (setSlice i [1, -2, 1] fun _ => (0 : K)) j - signed b (setSlice i [1, -2, 1] fun _ => 0) j =
        (c - sgn b) * (setSlice i [1, -2, 1] fun _ => (0 : K)) j := by
      intro j; rw [signed_apply]; ring
    by_cases hz : c = sgn b
    · left; intro j; rw [e, hz]; ring
    · right
      refine ⟨i + 2, by omega, ?_⟩
      rw [e, second_apply, if_pos rfl, mul_one]
      rcases hc with rfl | rfl <;> rcases sgn_ne (K := K) b with h2 | h2 <;> rw [h2] at hz ⊢
      · exact absurd rfl hz
      · norm_num
      · norm_num
      · exact absurd rfl hz
  · right
    refine ⟨i + 2, by omega, ?_⟩
    have h0 : signed b (setSlice s0 [1, -2, 1] fun _ => (0 : K)) (i + 2) = 0 := by
      rw [signed_apply, second_apply, if_neg (by omega), if_neg (by omega), if_neg (by omega), mul_zero]
    rw [second_apply, if_pos rfl]
    split_ifs
    · rw [h0]; simp [habs]
    · beta_reduce; rw [h0]; simp [habs]

theorem sat_dropZeroSq (n : ℕ) (tol : K) (h0 : 0 ≤ tol) (h1 : tol < 1) (A : List (ℕ → K))
    (hz : ∀ a ∈ A, (∀ j, a j = 0) ∨ ∃ j < n, 1 ≤ |a j|) (k : (ℕ → K) → K) (hk : ∀ a ∈ A, (∀ j, a j = 0) → k a ≤ 0) :
    (∀ a ∈ dropZeroRowsSq n tol A, k a ≤ 0) ↔ ∀ a ∈ A, k a ≤ 0 := by
  unfold dropZeroRowsSq
  simp only [List.mem_filter, decide_eq_true_eq]
  constructor
  · intro h a ha
    rcases hz a ha with e | ⟨j, hj, hbig⟩
    · exact hk a ha e
    · refine h a ⟨ha, lt_of_lt_of_le h1 ?_⟩
      calc (1 : K) ≤ a j ^ 2 := by rw [← sq_abs]; nlinarith
        _ ≤ _ := single_le_sum (f := fun j => a j ^ 2) (fun i _ => sq_nonneg _) (mem_range.2 hj)
  · intro h a ha
    exact h a ha.1

/-- C62.  The smoothness variant: exact for every reference second difference before the treatment (`s = s0 + 2 - p`). -/
theorem C62_sdrm_fixed (tol : K) (h0 : 0 ≤ tol) (h1 : tol < 1) (p q : ℕ) (mbar : K) (s : ℤ) (s0 : ℕ)
    (hs : (p : ℤ) + s - 2 = s0) (hs0 : s0 + 2 ≤ p) (b : Bool) (v : ℕ → K) :
    Sat (p + q) (sdrmMatrix tol p q mbar s b) 0 v ↔ PolySDRM p q mbar s0 b v := by
  unfold sdrmMatrix
  have hn : ((p : ℤ) + s - 2).toNat = s0 := by omega
  simp only [hn]
  set vm := signed b (setSlice s0 [1, -2, 1] fun _ => (0 : K)) with hvm
  have hlen : p - 1 + q = p + q - 1 := by omega
  rw [ubRows_eq, hlen]
  have step : ∀ A : List (ℕ → K), Sat (p + q) (A.map (delCol p)) 0 v ↔ ∀ a ∈ A, dotN (p + q + 1) a (full p v) ≤ 0 := by
    intro A
    unfold Sat
    simp only [List.mem_map, forall_exists_index, and_imp, forall_apply_eq_imp_iff₂, dotN_delCol]
  rw [step, sat_dropZeroSq (p + q + 1) tol h0 h1 _ ?_ (fun a => dotN (p + q + 1) a (full p v)) ?_, sat_absStack]
  · constructor
    · intro h
      constructor
      · intro r hr
        have := h r (by omega)
        rw [dotN_second _ _ _ (by omega), if_pos (by omega), hvm, dotN_signed, dotN_second _ _ _ (by omega)] at this
        exact this
      · intro t ht1 ht2
        have := h t (by omega)
        rw [dotN_second _ _ _ (by omega), if_neg (by omega), dotN_smul, hvm, dotN_signed,
          dotN_second _ _ _ (by omega)] at this
        exact this
    · rintro ⟨h2, h3⟩ i hi
      rw [dotN_second _ _ _ (by omega)]
      by_cases hp : i < p - 1
      · rw [if_pos hp, hvm, dotN_signed, dotN_second _ _ _ (by omega)]
        exact h2 i (by omega)
      · rw [if_neg hp, dotN_smul, hvm, dotN_signed, dotN_second _ _ _ (by omega)]
        exact h3 i (by omega) (by omega)
  · intro a ha
    rw [absStack_eq] at ha
    simp only [List.mem_append, List.mem_map, List.mem_range] at ha
    rcases ha with ⟨i, hi, rfl⟩ | ⟨i, hi, rfl⟩
    · have := sdrm_rows p q s0 i hs0 (by omega) mbar 1 b (Or.inl rfl)
      simp only [one_mul] at this
      exact this
    · have := sdrm_rows p q s0 i hs0 (by omega) mbar (-1) b (Or.inr rfl)
      simp only [neg_one_mul] at this
      exact this
  · intro a _ hz
    unfold dotN
    exact le_of_eq (sum_eq_zero fun j hj => by rw [hz j, zero_mul])

/-- C62.  The search of `compute_*_sdrm` covers exactly the documented set. -/
theorem C62_sdrm_search (tol : K) (h0 : 0 ≤ tol) (h1 : tol < 1) (p q : ℕ) (mbar : K) (v : ℕ → K) :
    (∃ s ∈ sRangeSDRM p, ∃ b, Sat (p + q) (sdrmMatrix tol p q mbar s b) 0 v) ↔ v ∈ DeltaSDRM p q mbar := by
  have hu : v ∈ DeltaSDRM p q mbar ↔ ∃ s0, s0 + 2 ≤ p ∧ ∃ b, PolySDRM p q mbar s0 b v := by
    constructor
    · rintro ⟨s0, hs, h1, h2⟩
      refine ⟨s0, hs, decide (0 ≤ D2 (full p v) s0), ?_⟩
      have e : (sgn (decide (0 ≤ D2 (full p v) s0)) : K) * D2 (full p v) s0 = |D2 (full p v) s0| := by
        by_cases h : 0 ≤ D2 (full p v) s0
        · simp [sgn, h, abs_of_nonneg h]
        · have := abs_of_neg (lt_of_not_ge h)
          simp [sgn, h, this]
      unfold PolySDRM
      rw [e]
      exact ⟨h1, h2⟩
    · rintro ⟨s0, hs, b, h1, h2⟩
      have e : sgn b * D2 (full p v) s0 = |D2 (full p v) s0| := by
        refine le_antisymm ?_ (h1 s0 hs)
        rcases sgn_ne (K := K) b with h | h <;> rw [h]
        · rw [one_mul]; exact le_abs_self _
        · rw [neg_one_mul]; exact neg_le_abs _
      refine ⟨s0, hs, ?_, ?_⟩
      · intro r hr; rw [← e]; exact h1 r hr
      · intro t ht ht'; rw [← e]; exact h2 t ht ht'
  rw [hu]
  unfold sRangeSDRM
  simp only [List.mem_map, List.mem_range]
  constructor
  · rintro ⟨s, ⟨k, hk, rfl⟩, b, h⟩
    refine ⟨k, by omega, b, (C62_sdrm_fixed tol h0 h1 p q mbar _ k (by ring) (by omega) b v).1 h⟩
  · rintro ⟨s0, hs, b, h⟩
    refine ⟨(s0 : ℤ) + 2 - p, ⟨s0, by omega, by omega⟩, b,
      (C62_sdrm_fixed tol h0 h1 p q mbar _ s0 (by ring) hs b v).2 h⟩

example : exPath ∈ DeltaRM 2 2 1 ∧ (∃ s ∈ sRangeRM 2, ∃ b, Sat 4 (rmMatrix (1 / 10 ^ 10) 2 2 1 s b) 0 exPath) := by
  have h : PolyRM 2 2 1 1 true exPath := by
    constructor
    · intro r hr
      have : r = 0 ∨ r = 1 := by omega
      rcases this with rfl | rfl <;> simp [D1, full, exPath, sgn] <;> norm_num
    · intro t h1 h2
      have : t = 2 ∨ t = 3 := by omega
      rcases this with rfl | rfl <;> simp [D1, full, exPath, sgn] <;> norm_num
  exact ⟨(C62_union 2 2 1 _).2 ⟨1, by omega, true, h⟩,
    (C62_rm_search (1 / 10 ^ 10) (by norm_num) (by norm_num) 2 2 1 _).2 ⟨1, le_rfl, by omega, true, h⟩⟩

end Verif.Honest
