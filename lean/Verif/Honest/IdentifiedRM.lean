import Verif.Honest.Identified

/-!
# C63: identified sets under relative magnitudes
-/

set_option linter.unusedSectionVars false
set_option linter.unusedSimpArgs false

namespace Verif.Honest

open Finset

variable {K : Type*} [Field K] [LinearOrder K] [IsStrictOrderedRing K]

theorem full_pre (p : ℕ) (v beta : ℕ → K) (h : ∀ j < p, v j = beta j) (r : ℕ) (hr : r ≤ p) : full p v r = full p beta r := by
  unfold full
  by_cases h1 : r < p
  · rw [if_pos h1, if_pos h1, h r h1]
  · rw [if_neg h1, if_neg h1, if_pos (by omega), if_pos (by omega)]

theorem D1_pre (p : ℕ) (v beta : ℕ → K) (h : ∀ j < p, v j = beta j) (r : ℕ) (hr : r < p) :
    D1 (full p v) r = D1 (full p beta) r := by
  unfold D1
  rw [full_pre p v beta h _ (by omega), full_pre p v beta h _ (by omega)]

theorem D2_pre (p : ℕ) (v beta : ℕ → K) (h : ∀ j < p, v j = beta j) (r : ℕ) (hr : r + 2 ≤ p) :
    D2 (full p v) r = D2 (full p beta) r := by
  unfold D2
  rw [full_pre p v beta h _ (by omega), full_pre p v beta h _ (by omega), full_pre p v beta h _ (by omega)]

theorem rm_bounded (p q : ℕ) (l : ℕ → K) (S : Set (ℕ → K)) (M : K)
    (hS : ∀ v ∈ S, ∀ t, p ≤ t → t < p + q → |D1 (full p v) t| ≤ M) : ∃ B, ∀ v ∈ S, |target p q l v| ≤ B := by
  have val : ∀ k ≤ q, ∃ B, ∀ v ∈ S, |full p v (p + k)| ≤ B := by
    intro k
    induction k with
    | zero =>
      intro _
      refine ⟨0, fun v _ => ?_⟩
      unfold full
      rw [if_neg (by omega), if_pos (by omega), abs_zero]
    | succ k ih =>
      intro hk
      obtain ⟨B, hB⟩ := ih (by omega)
      refine ⟨M + B, fun v hv => ?_⟩
      have h1 := hB v hv
      have h2 := hS v hv (p + k) (by omega) (by omega)
      unfold D1 at h2
      rw [show p + (k + 1) = p + k + 1 by ring]
      rw [abs_le] at h1 h2 ⊢
      constructor <;> linarith [h1.1, h1.2, h2.1, h2.2]
  refine target_bounded p q l S fun k hk => ?_
  obtain ⟨B, hB⟩ := val (k + 1) (by omega)
  refine ⟨B, fun v hv => ?_⟩
  have := hB v hv
  rwa [show p + (k + 1) = p + k + 1 by ring, full_post] at this

/-- Nested feasible sets give nested intervals, provided they are empty together. -/
theorem bounds_nested {S S' : Set (ℕ → K)} {f : (ℕ → K) → K} (obs : K) {rmax rmin rmax' rmin' : Option K}
    (hM : LpMin S (fun v => -f v) rmax) (hm : LpMin S f rmin) (hM' : LpMin S' (fun v => -f v) rmax') (hm' : LpMin S' f rmin')
    (hsub : S ⊆ S') (hempty : S = ∅ → S' = ∅) (hb : ∃ B, ∀ v ∈ S', |f v| ≤ B) :
    (bounds obs rmax' rmin').1 ≤ (bounds obs rmax rmin).1 ∧ (bounds obs rmax rmin).2 ≤ (bounds obs rmax' rmin').2 := by
  obtain ⟨B, hB⟩ := hb
  rcases S.eq_empty_or_nonempty with he | hne
  · have he' := hempty he
    have h1 : bounds obs rmax rmin = (obs, obs) := by
      cases rmin with
      | some m =>
        obtain ⟨⟨v, hv, _⟩, _⟩ := hm
        rw [he] at hv
        exact absurd hv (Set.notMem_empty _)
      | none => cases rmax <;> rfl
    have h2 : bounds obs rmax' rmin' = (obs, obs) := by
      cases rmin' with
      | some m =>
        obtain ⟨⟨v, hv, _⟩, _⟩ := hm'
        rw [he'] at hv
        exact absurd hv (Set.notMem_empty _)
      | none => cases rmax' <;> rfl
    rw [h1, h2]
    exact ⟨le_rfl, le_rfl⟩
  · obtain ⟨_, ⟨u, hu, e1⟩, ⟨w, hw, e2⟩⟩ := bounds_iff obs hM hm B (fun v hv => hB v (hsub hv)) hne
    obtain ⟨h1, _, _⟩ := bounds_iff obs hM' hm' B hB (hne.mono hsub)
    rw [← e1, ← e2]
    exact ⟨(h1 u (hsub hu)).1, (h1 w (hsub hw)).2⟩

/-- Observed coefficients: effect plus violation. -/
def observe (p : ℕ) (δ τ : ℕ → K) (j : ℕ) : K := if j < p then δ j else δ j + τ (j - p)

theorem observe_target (p q : ℕ) (l δ τ : ℕ → K) :
    target p q l (observe p δ τ) - target p q l δ = ∑ k ∈ range q, l k * τ k := by
  rw [obs_sub]
  exact sum_congr rfl fun k _ => by simp [observe]

theorem union_contains (p q : ℕ) (l δ τ : ℕ → K) (ss : List ℤ) (A : ℤ → Bool → List (ℕ → K))
    (rmax rmin : ℤ → Bool → Option K)
    (hM : ∀ s ∈ ss, ∀ b, LpMin (feasible p q (A s b) 0 (observe p δ τ)) (fun v => -target p q l v) (rmax s b))
    (hm : ∀ s ∈ ss, ∀ b, LpMin (feasible p q (A s b) 0 (observe p δ τ)) (target p q l) (rmin s b))
    (hb : ∀ s ∈ ss, ∀ b, ∃ B, ∀ v ∈ feasible p q (A s b) 0 (observe p δ τ), |target p q l v| ≤ B)
    (hd : ∃ s ∈ ss, ∃ b, Sat (p + q) (A s b) 0 δ) (r : K × K)
    (hr : unionSet (target p q l (observe p δ τ)) ss rmax rmin = some r) :
    r.1 ≤ ∑ k ∈ range q, l k * τ k ∧ ∑ k ∈ range q, l k * τ k ≤ r.2 := by
  obtain ⟨s, hs, b, hsat⟩ := hd
  have hmem : δ ∈ feasible p q (A s b) 0 (observe p δ τ) := ⟨hsat, fun j hj => by simp [observe, hj]⟩
  obtain ⟨B, hB⟩ := hb s hs b
  obtain ⟨h1, _, _⟩ := bounds_iff (target p q l (observe p δ τ)) (hM s hs b) (hm s hs b) B hB ⟨δ, hmem⟩
  have h2 := h1 δ hmem
  rw [observe_target] at h2
  obtain ⟨h3, _, _⟩ := unionSet_spec _ _ _ _ _ hr
  exact ⟨(h3 s hs b).1.trans h2.1, h2.2.trans (h3 s hs b).2⟩

theorem sRangeRM_ref (p : ℕ) (s : ℤ) (h : s ∈ sRangeRM p) : ∃ s0 : ℕ, 1 ≤ s0 ∧ s0 < p ∧ (p : ℤ) + s = s0 := by
  unfold sRangeRM at h
  simp only [List.mem_map, List.mem_range] at h
  obtain ⟨k, hk, rfl⟩ := h
  exact ⟨k + 1, by omega, by omega, by push_cast; ring⟩

theorem sRangeSDRM_ref (p : ℕ) (s : ℤ) (h : s ∈ sRangeSDRM p) : ∃ s0 : ℕ, s0 + 2 ≤ p ∧ (p : ℤ) + s - 2 = s0 := by
  unfold sRangeSDRM at h
  simp only [List.mem_map, List.mem_range] at h
  obtain ⟨k, hk, rfl⟩ := h
  exact ⟨k, by omega, by ring⟩

theorem rm_feasible_bounded (tol : K) (h0 : 0 ≤ tol) (h1 : tol < 1) (p q : ℕ) (mbar : K) (s : ℤ) (hs : s ∈ sRangeRM p)
    (b : Bool) (beta l : ℕ → K) : ∃ B, ∀ v ∈ feasible p q (rmMatrix tol p q mbar s b) 0 beta, |target p q l v| ≤ B := by
  obtain ⟨s0, _, hs2, e⟩ := sRangeRM_ref p s hs
  refine rm_bounded p q l _ (mbar * (sgn b * D1 (full p beta) s0)) ?_
  rintro v ⟨hv, hpre⟩ t ht1 ht2
  have := ((C62_rm_fixed tol h0 h1 p q mbar s s0 e hs2 b v).1 hv).2 t ht1 ht2
  rwa [D1_pre p v beta hpre s0 hs2] at this

theorem sdrm_feasible_bounded (tol : K) (h0 : 0 ≤ tol) (h1 : tol < 1) (p q : ℕ) (mbar : K) (s : ℤ) (hs : s ∈ sRangeSDRM p)
    (b : Bool) (beta l : ℕ → K) : ∃ B, ∀ v ∈ feasible p q (sdrmMatrix tol p q mbar s b) 0 beta, |target p q l v| ≤ B := by
  obtain ⟨s0, hs2, e⟩ := sRangeSDRM_ref p s hs
  refine sd_bounded p q (by omega) l _ beta (mbar * (sgn b * D2 (full p beta) s0)) (fun v hv => hv.2) ?_
  rintro v ⟨hv, hpre⟩ t ht1 ht2
  have := ((C62_sdrm_fixed tol h0 h1 p q mbar s s0 e hs2 b v).1 hv).2 t ht1 ht2
  rwa [D2_pre p v beta hpre s0 hs2] at this

/-- C63.  Relative magnitudes: the reported set contains the true effect whenever the violation path is in the documented set
AND its largest pre-treatment change is attained at some difference other than the first. -/
theorem C63_rm_contains (tol : K) (h0 : 0 ≤ tol) (h1 : tol < 1) (p q : ℕ) (mbar : K) (δ τ l : ℕ → K)
    (hδ : ∃ s0, 1 ≤ s0 ∧ s0 < p ∧ (∀ r < p, |D1 (full p δ) r| ≤ |D1 (full p δ) s0|) ∧
      ∀ t, p ≤ t → t < p + q → |D1 (full p δ) t| ≤ mbar * |D1 (full p δ) s0|)
    (rmax rmin : ℤ → Bool → Option K)
    (hM : ∀ s ∈ sRangeRM p, ∀ b,
      LpMin (feasible p q (rmMatrix tol p q mbar s b) 0 (observe p δ τ)) (fun v => -target p q l v) (rmax s b))
    (hm : ∀ s ∈ sRangeRM p, ∀ b,
      LpMin (feasible p q (rmMatrix tol p q mbar s b) 0 (observe p δ τ)) (target p q l) (rmin s b)) (r : K × K)
    (hr : unionSet (target p q l (observe p δ τ)) (sRangeRM p) rmax rmin = some r) :
    r.1 ≤ ∑ k ∈ range q, l k * τ k ∧ ∑ k ∈ range q, l k * τ k ≤ r.2 := by
  refine union_contains p q l δ τ (sRangeRM p) _ rmax rmin hM hm
    (fun s hs b => rm_feasible_bounded tol h0 h1 p q mbar s hs b _ l) ?_ r hr
  rw [C62_rm_search tol h0 h1]
  obtain ⟨s0, hs1, hs2, ha, hb⟩ := hδ
  refine ⟨s0, hs1, hs2, decide (0 ≤ D1 (full p δ) s0), ?_⟩
  have e : (sgn (decide (0 ≤ D1 (full p δ) s0)) : K) * D1 (full p δ) s0 = |D1 (full p δ) s0| := by
    by_cases h : 0 ≤ D1 (full p δ) s0
    · simp [sgn, h, abs_of_nonneg h]
    · have := abs_of_neg (lt_of_not_ge h)
      simp [sgn, h, this]
  unfold PolyRM
  rw [e]
  exact ⟨ha, hb⟩

/-- C63.  Smoothness relative to the pre-trend: the reported set contains the true effect for every path of the documented
set. -/
theorem C63_sdrm_contains (tol : K) (h0 : 0 ≤ tol) (h1 : tol < 1) (p q : ℕ) (mbar : K) (δ τ l : ℕ → K)
    (hδ : δ ∈ DeltaSDRM p q mbar) (rmax rmin : ℤ → Bool → Option K)
    (hM : ∀ s ∈ sRangeSDRM p, ∀ b,
      LpMin (feasible p q (sdrmMatrix tol p q mbar s b) 0 (observe p δ τ)) (fun v => -target p q l v) (rmax s b))
    (hm : ∀ s ∈ sRangeSDRM p, ∀ b,
      LpMin (feasible p q (sdrmMatrix tol p q mbar s b) 0 (observe p δ τ)) (target p q l) (rmin s b)) (r : K × K)
    (hr : unionSet (target p q l (observe p δ τ)) (sRangeSDRM p) rmax rmin = some r) :
    r.1 ≤ ∑ k ∈ range q, l k * τ k ∧ ∑ k ∈ range q, l k * τ k ≤ r.2 := by
  refine union_contains p q l δ τ (sRangeSDRM p) _ rmax rmin hM hm
    (fun s hs b => sdrm_feasible_bounded tol h0 h1 p q mbar s hs b _ l) ?_ r hr
  exact (C62_sdrm_search tol h0 h1 p q mbar δ).2 hδ

theorem union_nested (p q : ℕ) (l beta : ℕ → K) (ss : List ℤ) (A A' : ℤ → Bool → List (ℕ → K))
    (rmax rmin rmax' rmin' : ℤ → Bool → Option K)
    (hM : ∀ s ∈ ss, ∀ b, LpMin (feasible p q (A s b) 0 beta) (fun v => -target p q l v) (rmax s b))
    (hm : ∀ s ∈ ss, ∀ b, LpMin (feasible p q (A s b) 0 beta) (target p q l) (rmin s b))
    (hM' : ∀ s ∈ ss, ∀ b, LpMin (feasible p q (A' s b) 0 beta) (fun v => -target p q l v) (rmax' s b))
    (hm' : ∀ s ∈ ss, ∀ b, LpMin (feasible p q (A' s b) 0 beta) (target p q l) (rmin' s b))
    (hsub : ∀ s ∈ ss, ∀ b, feasible p q (A s b) 0 beta ⊆ feasible p q (A' s b) 0 beta)
    (hem : ∀ s ∈ ss, ∀ b, (feasible p q (A' s b) 0 beta).Nonempty → (feasible p q (A s b) 0 beta).Nonempty)
    (hb : ∀ s ∈ ss, ∀ b, ∃ B, ∀ v ∈ feasible p q (A' s b) 0 beta, |target p q l v| ≤ B) (r r' : K × K)
    (hr : unionSet (target p q l beta) ss rmax rmin = some r)
    (hr' : unionSet (target p q l beta) ss rmax' rmin' = some r') : r'.1 ≤ r.1 ∧ r.2 ≤ r'.2 := by
  obtain ⟨_, ⟨s, hs, b, e⟩, ⟨t, ht, c, e'⟩⟩ := unionSet_spec _ _ _ _ _ hr
  obtain ⟨h, _, _⟩ := unionSet_spec _ _ _ _ _ hr'
  have em : ∀ s ∈ ss, ∀ b, feasible p q (A s b) 0 beta = ∅ → feasible p q (A' s b) 0 beta = ∅ := by
    intro s hs b he
    by_contra hne
    exact (hem s hs b (Set.nonempty_iff_ne_empty.2 hne)).ne_empty he
  have n1 := bounds_nested (target p q l beta) (hM s hs b) (hm s hs b) (hM' s hs b) (hm' s hs b) (hsub s hs b) (em s hs b)
    (hb s hs b)
  have n2 := bounds_nested (target p q l beta) (hM t ht c) (hm t ht c) (hM' t ht c) (hm' t ht c) (hsub t ht c) (em t ht c)
    (hb t ht c)
  rw [← e, ← e']
  exact ⟨(h s hs b).1.trans n1.1, n2.2.trans (h t ht c).2⟩

/-- C63.  Relative magnitudes: the reported set grows with `Mbar`. -/
theorem C63_rm_nested (tol : K) (h0 : 0 ≤ tol) (h1 : tol < 1) (p q : ℕ) (mbar mbar' : K) (hm0 : 0 ≤ mbar)
    (hmm : mbar ≤ mbar') (beta l : ℕ → K) (rmax rmin rmax' rmin' : ℤ → Bool → Option K)
    (hM : ∀ s ∈ sRangeRM p, ∀ b,
      LpMin (feasible p q (rmMatrix tol p q mbar s b) 0 beta) (fun v => -target p q l v) (rmax s b))
    (hm : ∀ s ∈ sRangeRM p, ∀ b, LpMin (feasible p q (rmMatrix tol p q mbar s b) 0 beta) (target p q l) (rmin s b))
    (hM' : ∀ s ∈ sRangeRM p, ∀ b,
      LpMin (feasible p q (rmMatrix tol p q mbar' s b) 0 beta) (fun v => -target p q l v) (rmax' s b))
    (hm' : ∀ s ∈ sRangeRM p, ∀ b, LpMin (feasible p q (rmMatrix tol p q mbar' s b) 0 beta) (target p q l) (rmin' s b))
    (r r' : K × K) (hr : unionSet (target p q l beta) (sRangeRM p) rmax rmin = some r)
    (hr' : unionSet (target p q l beta) (sRangeRM p) rmax' rmin' = some r') : r'.1 ≤ r.1 ∧ r.2 ≤ r'.2 := by
  refine union_nested p q l beta (sRangeRM p) _ _ rmax rmin rmax' rmin' hM hm hM' hm' ?_ ?_
    (fun s hs b => rm_feasible_bounded tol h0 h1 p q mbar' s hs b _ l) r r' hr hr'
  · rintro s hs b v ⟨hv, hpre⟩
    obtain ⟨s0, _, hs2, e⟩ := sRangeRM_ref p s hs
    refine ⟨(C62_rm_fixed tol h0 h1 p q mbar' s s0 e hs2 b v).2 ?_, hpre⟩
    obtain ⟨ha, hb⟩ := (C62_rm_fixed tol h0 h1 p q mbar s s0 e hs2 b v).1 hv
    refine ⟨ha, fun t t1 t2 => (hb t t1 t2).trans (mul_le_mul_of_nonneg_right hmm ?_)⟩
    exact (abs_nonneg _).trans (ha s0 hs2)
  · rintro s hs b ⟨v, hv, hpre⟩
    obtain ⟨s0, _, hs2, e⟩ := sRangeRM_ref p s hs
    have ha := ((C62_rm_fixed tol h0 h1 p q mbar' s s0 e hs2 b v).1 hv).1
    refine ⟨fun j => if j < p then beta j else 0, (C62_rm_fixed tol h0 h1 p q mbar s s0 e hs2 b _).2 ⟨?_, ?_⟩,
      fun j hj => by simp [hj]⟩
    · intro k hk
      have e1 : ∀ k < p, D1 (full p fun j => if j < p then beta j else 0) k = D1 (full p v) k := by
        intro k hk
        rw [D1_pre p v beta hpre k hk, D1_pre p (fun j => if j < p then beta j else 0) beta (fun j hj => by simp [hj]) k hk]
      rw [e1 k hk, e1 s0 hs2]
      exact ha k hk
    · intro t t1 t2
      have z : ∀ t, p ≤ t → full p (fun j => if j < p then beta j else 0) t = 0 := by
        intro t ht
        unfold full
        rw [if_neg (by omega)]
        by_cases h : t = p
        · rw [if_pos h]
        · rw [if_neg h]
          beta_reduce
          rw [if_neg (by omega)]
      have e1 : D1 (full p fun j => if j < p then beta j else 0) t = 0 := by
        unfold D1
        rw [z t t1, z (t + 1) (by omega), sub_self]
      rw [e1, abs_zero]
      refine mul_nonneg hm0 ?_
      rw [D1_pre p (fun j => if j < p then beta j else 0) beta (fun j hj => by simp [hj]) s0 hs2]
      rw [← D1_pre p v beta hpre s0 hs2]
      exact (abs_nonneg _).trans (ha s0 hs2)

/-- C63.  Smoothness relative to the pre-trend: the reported set grows with `Mbar`. -/
theorem C63_sdrm_nested (tol : K) (h0 : 0 ≤ tol) (h1 : tol < 1) (p q : ℕ) (mbar mbar' : K) (hm0 : 0 ≤ mbar)
    (hmm : mbar ≤ mbar') (beta l : ℕ → K) (rmax rmin rmax' rmin' : ℤ → Bool → Option K)
    (hM : ∀ s ∈ sRangeSDRM p, ∀ b,
      LpMin (feasible p q (sdrmMatrix tol p q mbar s b) 0 beta) (fun v => -target p q l v) (rmax s b))
    (hm : ∀ s ∈ sRangeSDRM p, ∀ b, LpMin (feasible p q (sdrmMatrix tol p q mbar s b) 0 beta) (target p q l) (rmin s b))
    (hM' : ∀ s ∈ sRangeSDRM p, ∀ b,
      LpMin (feasible p q (sdrmMatrix tol p q mbar' s b) 0 beta) (fun v => -target p q l v) (rmax' s b))
    (hm' : ∀ s ∈ sRangeSDRM p, ∀ b, LpMin (feasible p q (sdrmMatrix tol p q mbar' s b) 0 beta) (target p q l) (rmin' s b))
    (r r' : K × K) (hr : unionSet (target p q l beta) (sRangeSDRM p) rmax rmin = some r)
    (hr' : unionSet (target p q l beta) (sRangeSDRM p) rmax' rmin' = some r') : r'.1 ≤ r.1 ∧ r.2 ≤ r'.2 := by
  refine union_nested p q l beta (sRangeSDRM p) _ _ rmax rmin rmax' rmin' hM hm hM' hm' ?_ ?_
    (fun s hs b => sdrm_feasible_bounded tol h0 h1 p q mbar' s hs b _ l) r r' hr hr'
  · rintro s hs b v ⟨hv, hpre⟩
    obtain ⟨s0, hs2, e⟩ := sRangeSDRM_ref p s hs
    refine ⟨(C62_sdrm_fixed tol h0 h1 p q mbar' s s0 e hs2 b v).2 ?_, hpre⟩
    obtain ⟨ha, hb⟩ := (C62_sdrm_fixed tol h0 h1 p q mbar s s0 e hs2 b v).1 hv
    refine ⟨ha, fun t t1 t2 => (hb t t1 t2).trans (mul_le_mul_of_nonneg_right hmm ?_)⟩
    exact (abs_nonneg _).trans (ha s0 hs2)
  · rintro s hs b ⟨v, hv, hpre⟩
    obtain ⟨s0, hs2, e⟩ := sRangeSDRM_ref p s hs
    have ha := ((C62_sdrm_fixed tol h0 h1 p q mbar' s s0 e hs2 b v).1 hv).1
    set w : ℕ → K := fun j => if j < p then beta j else -(((j - p + 1 : ℕ) : K) * beta (p - 1)) with hw
    have hwpre : ∀ j < p, w j = beta j := fun j hj => by simp [hw, hj]
    refine ⟨w, (C62_sdrm_fixed tol h0 h1 p q mbar s s0 e hs2 b _).2 ⟨?_, ?_⟩, hwpre⟩
    · intro k hk
      rw [D2_pre p w beta hwpre k hk, D2_pre p w beta hwpre s0 hs2, ← D2_pre p v beta hpre k hk,
        ← D2_pre p v beta hpre s0 hs2]
      exact ha k hk
    · intro t t1 t2
      have z : ∀ t, p - 1 ≤ t → full p w t = -(((t : ℕ) : K) - p) * beta (p - 1) := by
        intro t ht
        unfold full
        by_cases h1 : t < p
        · rw [if_pos h1, hwpre t h1]
          have : t = p - 1 := by omega
          have h2 : ((p - 1 : ℕ) : K) = p - 1 := by rw [Nat.cast_sub (by omega)]; simp
          rw [this, h2]; ring
        · rw [if_neg h1]
          by_cases h2 : t = p
          · rw [if_pos h2, h2]; ring
          · rw [if_neg h2, hw]
            beta_reduce
            rw [if_neg (by omega)]
            have : t - 1 - p + 1 = t - p := by omega
            rw [this, Nat.cast_sub (by omega)]; ring
      have e1 : D2 (full p w) t = 0 := by
        unfold D2
        rw [z t (by omega), z (t + 1) (by omega), z (t + 2) (by omega)]
        push_cast
        ring
      rw [e1, abs_zero]
      refine mul_nonneg hm0 ?_
      rw [D2_pre p w beta hwpre s0 hs2, ← D2_pre p v beta hpre s0 hs2]
      exact (abs_nonneg _).trans (ha s0 hs2)

/-- C63 (violated).  A violation path of the documented relative-magnitude set whose only pre-treatment change is the FIRST one:
every linear program is infeasible, the code reports the point estimate, and the true effect is not in it. -/
theorem C63_rm_violated (tol : K) (h0 : 0 ≤ tol) (h1 : tol < 1) (p q : ℕ) (hp : 2 ≤ p) (mbar c d : K) (hc : c ≠ 0)
    (hd : |d| ≤ mbar * |c|) (hm0 : 0 ≤ mbar) (τ l : ℕ → K) (hl : d * ∑ k ∈ range q, l k ≠ 0)
    (rmax rmin : ℤ → Bool → Option K)
    (hM : ∀ s ∈ sRangeRM p, ∀ b, LpMin (feasible p q (rmMatrix tol p q mbar s b) 0
      (observe p (fun j => if j = 0 then c else if j < p then 0 else d) τ)) (fun v => -target p q l v) (rmax s b))
    (hm : ∀ s ∈ sRangeRM p, ∀ b, LpMin (feasible p q (rmMatrix tol p q mbar s b) 0
      (observe p (fun j => if j = 0 then c else if j < p then 0 else d) τ)) (target p q l) (rmin s b)) :
    (fun j => if j = 0 then c else if j < p then 0 else d) ∈ DeltaRM p q mbar ∧
    ∃ x, unionSet (target p q l (observe p (fun j => if j = 0 then c else if j < p then 0 else d) τ)) (sRangeRM p) rmax rmin =
      some (x, x) ∧ ∑ k ∈ range q, l k * τ k ≠ x := by
  set δ : ℕ → K := fun j => if j = 0 then c else if j < p then 0 else d with hδ
  have hf : ∀ j, full p δ j = if j = 0 then c else if j ≤ p then 0 else d := by
    intro j
    unfold full
    rcases Nat.lt_trichotomy j p with h | h | h
    · rw [if_pos h, hδ]; beta_reduce
      by_cases hj : j = 0
      · rw [if_pos hj, if_pos hj]
      · rw [if_neg hj, if_neg hj, if_pos h, if_pos h.le]
    · rw [if_neg (by omega), if_pos h, if_neg (by omega), if_pos h.le]
    · rw [if_neg (by omega), if_neg (by omega), if_neg (by omega), if_neg (by omega), hδ]
      beta_reduce
      rw [if_neg (by omega), if_neg (by omega)]
  have hD : ∀ r, D1 (full p δ) r = if r = 0 then -c else if r = p then d else 0 := by
    intro r
    unfold D1
    rw [hf, hf, if_neg (by omega)]
    by_cases h : r = 0
    · rw [if_pos h, if_pos h, if_pos (by omega), zero_sub]
    · rw [if_neg h, if_neg h]
      rcases Nat.lt_trichotomy r p with h | h | h
      · rw [if_pos (by omega), if_pos (by omega), if_neg (by omega), sub_zero]
      · rw [if_neg (by omega), if_pos (by omega), if_pos h, sub_zero]
      · rw [if_neg (by omega), if_neg (by omega), if_neg (by omega), sub_self]
  have hempty : ∀ s ∈ sRangeRM p, ∀ b, feasible p q (rmMatrix tol p q mbar s b) 0 (observe p δ τ) = ∅ := by
    intro s hs b
    rw [Set.eq_empty_iff_forall_notMem]
    rintro v ⟨hv, hpre⟩
    obtain ⟨s0, hs1, hs2, e⟩ := sRangeRM_ref p s hs
    have ha := ((C62_rm_fixed tol h0 h1 p q mbar s s0 e hs2 b v).1 hv).1 0 (by omega)
    have hpre' : ∀ j < p, v j = δ j := fun j hj => by rw [hpre j hj]; simp [observe, hj]
    rw [D1_pre p v δ hpre' 0 (by omega), D1_pre p v δ hpre' s0 hs2, hD, hD, if_pos rfl, if_neg (by omega),
      if_neg (by omega), mul_zero, abs_neg] at ha
    exact hc (abs_nonpos_iff.1 ha)
  refine ⟨⟨0, by omega, ?_, ?_⟩, ?_⟩
  · intro r hr
    rw [hD, hD, if_pos rfl]
    by_cases h : r = 0
    · rw [if_pos h]
    · rw [if_neg h, if_neg (by omega), abs_zero]; exact abs_nonneg _
  · intro t ht _
    rw [hD, hD, if_pos rfl, if_neg (by omega), abs_neg]
    by_cases h : t = p
    · rw [if_pos h]; exact hd
    · rw [if_neg h, abs_zero]
      exact mul_nonneg hm0 (abs_nonneg _)
  · obtain ⟨r, hr⟩ := unionSet_some (target p q l (observe p δ τ)) (sRangeRM p)
      (by unfold sRangeRM; simp; omega) rmax rmin
    obtain ⟨_, ⟨s, hs, b, e⟩, ⟨t, ht, b', e'⟩⟩ := unionSet_spec _ _ _ _ _ hr
    have p1 := C63_infeasible_violated p q _ 0 _ l _ _ (hM s hs b) (hm s hs b) (hempty s hs b)
    have p2 := C63_infeasible_violated p q _ 0 _ l _ _ (hM t ht b') (hm t ht b') (hempty t ht b')
    rw [p1] at e
    rw [p2] at e'
    refine ⟨target p q l (observe p δ τ), ?_, ?_⟩
    · rw [hr]; exact congrArg some (Prod.ext e.symm e'.symm)
    · rw [← observe_target p q l δ τ]
      intro h
      have ht : target p q l δ = 0 := by linarith
      apply hl
      rw [← ht]
      unfold target
      rw [mul_sum]
      refine sum_congr rfl fun k _ => ?_
      have : δ (p + k) = d := by
        rw [hδ]; beta_reduce; rw [if_neg (by omega), if_neg (by omega)]
      rw [this]; ring

end Verif.Honest
