import Verif.Honest.SensTable

/-!
# C177: the grids of the sensitivity tables

Model of `sensitivity.py:498-513`, `sd.py:176-202` and of the unions `rm.py:193-242`, `sdrm.py:162-216`.
-/

set_option linter.unusedSectionVars false
set_option linter.unusedSimpArgs false

namespace Verif.Honest

open Finset MeasureTheory ProbabilityTheory

/-! ## Model -/

/-- Range of the grid of `compute_conditional_cs_sd` for the flags `LF` and `ARP`, `sd.py:176-202`: `idset` is the identified set of
all-zero coefficients. -/
noncomputable def sdGridRange (lo up : Option ℝ) (idset : ℝ × ℝ) (sd : ℝ) : ℝ × ℝ := (lo.getD (idset.1 - 20 * sd), up.getD (idset.2 + 20 * sd))

/-- `accept` of the union over `(s, sign)`: accepted if any piece accepts, `rm.py:236-237`, `sdrm.py:212-214`. -/
def unionFlags (grid : List ℝ) (pieces : List (List Bool)) : List (ℝ × Bool) :=
  grid.mapIdx fun i x => (x, pieces.any fun f => f.getD i false)

/-! ## Specification -/

/-- The row contains the value. -/
def SensRow.Covers (r : SensRow) (θ : ℝ) : Prop := ∃ a b, r.lb = some a ∧ r.ub = some b ∧ a ≤ θ ∧ θ ≤ b

/-- Every grid value is in the range. -/
def GridWithin (range : ℝ × ℝ) (set : List (ℝ × Bool)) : Prop := ∀ x ∈ set, range.1 ≤ x.1 ∧ x.1 ≤ range.2

/-! ## Lemmas -/

theorem covers_within (r : SensRow) (range : ℝ × ℝ) (set : List (ℝ × Bool)) (h1 : GridWithin range set) (h2 : r.Summarises (Accepted set)) (θ : ℝ)
    (h : r.Covers θ) : range.1 ≤ θ ∧ θ ≤ range.2 := by
  obtain ⟨a, b, ha, hb, h3, h4⟩ := h
  rcases h2 with ⟨-, h5, -⟩ | ⟨a', b', ha', hb', h5, h6⟩
  · rw [h5] at ha; cases ha
  · rw [ha'] at ha; cases ha
    rw [hb'] at hb; cases hb
    exact ⟨(h1 _ h5.1).1.trans h3, h4.trans (h1 _ h6.1).2⟩

/-- With `Mbar = 0` every feasible violation is zero after the treatment. -/
theorem rm_zero_target (tol : ℝ) (h0 : 0 ≤ tol) (h1 : tol < 1) (p q : ℕ) (beta l : ℕ → ℝ) :
    ∀ s ∈ sRangeRM p, ∀ b, ∀ v ∈ feasible p q (rmMatrix tol p q 0 s b) 0 beta, target p q l v = 0 := by
  rintro s hs b v ⟨hv, -⟩
  obtain ⟨s0, hs1, hs2, e⟩ := sRangeRM_ref p s hs
  have hP := (C62_rm_fixed tol h0 h1 p q 0 s s0 e hs2 b v).1 hv
  have hz : ∀ k, k ≤ q → full p v (p + k) = 0 := by
    intro k hk
    induction k with
    | zero => simp [full]
    | succ k ih =>
      have := hP.2 (p + k) (by omega) (by omega)
      rw [zero_mul] at this
      have h3 := abs_nonpos_iff.1 this
      unfold D1 at h3
      rw [ih (by omega), sub_zero] at h3
      exact h3
  unfold target
  refine sum_eq_zero fun k hk => ?_
  have := hz (k + 1) (by have := mem_range.1 hk; omega)
  unfold full at this
  rw [if_neg (by omega), if_neg (by omega), show p + (k + 1) - 1 = p + k by omega] at this
  rw [this, mul_zero]

/-- With `Mbar = 0` the identified set under relative magnitudes is the point estimate. -/
theorem rm_zero_set (tol : ℝ) (h0 : 0 ≤ tol) (h1 : tol < 1) (p q : ℕ) (beta l : ℕ → ℝ) (rmax rmin : ℤ → Bool → Option ℝ)
    (hM : ∀ s ∈ sRangeRM p, ∀ b, LpMin (feasible p q (rmMatrix tol p q 0 s b) 0 beta) (fun v => -target p q l v) (rmax s b))
    (hm : ∀ s ∈ sRangeRM p, ∀ b, LpMin (feasible p q (rmMatrix tol p q 0 s b) 0 beta) (target p q l) (rmin s b)) (r : ℝ × ℝ)
    (hr : unionSet (target p q l beta) (sRangeRM p) rmax rmin = some r) : r = (target p q l beta, target p q l beta) := by
  have zero := rm_zero_target tol h0 h1 p q beta l
  have pt : ∀ s ∈ sRangeRM p, ∀ b, bounds (target p q l beta) (rmax s b) (rmin s b) = (target p q l beta, target p q l beta) := by
    intro s hs b
    have hM' := hM s hs b
    have hm' := hm s hs b
    cases e1 : rmax s b with
    | none => rfl
    | some x =>
      cases e2 : rmin s b with
      | none => rfl
      | some y =>
        rw [e1] at hM'
        rw [e2] at hm'
        obtain ⟨v, hv, ev⟩ := hM'.1
        obtain ⟨w, hw, ew⟩ := hm'.1
        beta_reduce at ev
        rw [zero s hs b v hv] at ev
        rw [zero s hs b w hw] at ew
        simp [bounds, ← ev, ← ew]
  obtain ⟨-, ⟨s, hs, b, e⟩, ⟨t, ht, b', e'⟩⟩ := unionSet_spec _ _ _ _ _ hr
  rw [pt s hs b] at e
  rw [pt t ht b'] at e'
  exact Prod.ext e.symm e'.symm

/-! ## C177 -/

variable {Ω : Type*} [MeasurableSpace Ω]

/-- C177.  Smoothness: each limit that is given is respected on its own (for relative magnitudes a single limit is ignored,
`C175_grid_violated`): every value of the grid is above the lower limit and below the upper limit given, and with a limit missing the grid
reaches twenty standard deviations beyond the identified set on that side. -/
theorem C177_sd_limits (lo up : Option ℝ) (idset : ℝ × ℝ) (sd : ℝ) :
    (∀ a, lo = some a → (sdGridRange lo up idset sd).1 = a) ∧ (∀ b, up = some b → (sdGridRange lo up idset sd).2 = b) ∧
    (lo = none → (sdGridRange lo up idset sd).1 + 20 * sd = idset.1) ∧ (up = none → (sdGridRange lo up idset sd).2 - 20 * sd = idset.2) := by
  refine ⟨?_, ?_, ?_, ?_⟩
  · rintro a rfl; rfl
  · rintro b rfl; rfl
  · rintro rfl; simp [sdGridRange]
  · rintro rfl; simp [sdGridRange]

/-- C177 (violation).  Smoothness, methods `Conditional` and `C-LF`, default grid, `M = 0`: the grid covers twenty standard deviations around
ZERO, whatever the estimates are, so an effect of more than twenty standard deviations is in no reported interval. -/
theorem C177_sd_violated (p q : ℕ) (hp : 1 ≤ p) (l : ℕ → ℝ) (sd : ℝ) (rmax rmin : Option ℝ)
    (hM : LpMin (feasible p q (sdMatrix p q) 0 fun _ => 0) (fun v => -target p q l v) rmax)
    (hm : LpMin (feasible p q (sdMatrix p q) 0 fun _ => 0) (target p q l) rmin) :
    sdGridRange none none (bounds (target p q l fun _ => 0) rmax rmin) sd = (-(20 * sd), 20 * sd) ∧
    ∀ (r : SensRow) (set : List (ℝ × Bool)), GridWithin (sdGridRange none none (bounds (target p q l fun _ => 0) rmax rmin) sd) set →
      r.Summarises (Accepted set) → ∀ θ, 20 * sd < |θ| → ¬ r.Covers θ := by
  have hz : target p q l (fun _ => 0) = 0 := by simp [target]
  have zero : ∀ v ∈ feasible p q (sdMatrix p q) 0 fun _ => (0 : ℝ), target p q l v = 0 := by
    rintro v ⟨hv, hpre⟩
    obtain ⟨n, rfl⟩ : ∃ n, p = n + 1 := ⟨p - 1, by omega⟩
    have hd := (C60_sd (n + 1) q 0 v).1 hv
    have hfull : ∀ k, k ≤ q → full (n + 1) v (n + 1 + k) = 0 ∧ full (n + 1) v (n + k) = 0 := by
      intro k hk
      induction k with
      | zero =>
        refine ⟨by simp [full], ?_⟩
        unfold full
        rw [if_pos (by omega)]
        exact hpre n (by omega)
      | succ k ih =>
        obtain ⟨h1, h2⟩ := ih (by omega)
        have h3 := abs_nonpos_iff.1 (hd (n + k) (by omega))
        unfold D2 at h3
        rw [h2, show n + k + 1 = n + 1 + k by ring, h1, mul_zero, sub_zero, zero_add] at h3
        exact ⟨by rw [show n + 1 + (k + 1) = n + k + 2 by ring]; exact h3, by rw [show n + (k + 1) = n + 1 + k by ring]; exact h1⟩
    unfold target
    refine sum_eq_zero fun k hk => ?_
    have := (hfull (k + 1) (by have := mem_range.1 hk; omega)).1
    unfold full at this
    rw [if_neg (by omega), if_neg (by omega), show n + 1 + (k + 1) - 1 = n + 1 + k by omega] at this
    rw [this, mul_zero]
  have pt : bounds (target p q l fun _ => 0) rmax rmin = (0, 0) := by
    rw [hz]
    cases rmax with
    | none => rfl
    | some x =>
      cases rmin with
      | none => rfl
      | some y =>
        obtain ⟨v, hv, ev⟩ := hM.1
        obtain ⟨w, hw, ew⟩ := hm.1
        beta_reduce at ev
        rw [zero v hv] at ev
        rw [zero w hw] at ew
        simp [bounds, ← ev, ← ew]
  have range : sdGridRange none none (bounds (target p q l fun _ => 0) rmax rmin) sd = (-(20 * sd), 20 * sd) := by
    rw [pt]
    simp [sdGridRange]
  refine ⟨range, fun r set h1 h2 θ hθ hc => ?_⟩
  rw [range] at h1
  obtain ⟨h3, h4⟩ := covers_within r _ set h1 h2 θ hc
  exact absurd (abs_le.2 ⟨h3, h4⟩) (not_le.2 hθ)

/-- C177 (violation).  Deviation from linear trend, default grid, `Mbar = 0`: the grid is twenty standard deviations around the estimate of the
PARALLEL-trends analysis.  A linear pre-trend of slope `c` belongs to the restriction, but the reported interval contains the effect with
probability at most `Phi(20 - c T / sd)` with `T = sum (k+1) l_k`, hence at most one half for `c T >= 20 sd`. -/
theorem C177_sdrm_violated (P : Measure Ω) [IsProbabilityMeasure P] (tol : ℝ) (h0 : 0 ≤ tol) (h1 : tol < 1) (p q : ℕ) (hp : 3 ≤ p) (l τ : ℕ → ℝ) (c : ℝ)
    (betaHat : Ω → ℕ → ℝ) (sigma : ℕ → ℕ → ℝ) (hG : GaussianCoefs P (p + q) betaHat (betaOf p (fun j => c * trend p j) τ) sigma) (sd : ℝ)
    (hsd : sd = Real.sqrt (∑ i ∈ range q, ∑ j ∈ range q, l i * sigma (p + i) (p + j) * l j)) (hpos : 0 < sd)
    (rmax rmin : Ω → ℤ → Bool → Option ℝ)
    (hM : ∀ ω, ∀ s ∈ sRangeRM p, ∀ b, LpMin (feasible p q (rmMatrix tol p q 0 s b) 0 (betaHat ω)) (fun v => -target p q l v) (rmax ω s b))
    (hm : ∀ ω, ∀ s ∈ sRangeRM p, ∀ b, LpMin (feasible p q (rmMatrix tol p q 0 s b) 0 (betaHat ω)) (target p q l) (rmin ω s b))
    (idset : Ω → ℝ × ℝ) (hid : ∀ ω, unionSet (target p q l (betaHat ω)) (sRangeRM p) (rmax ω) (rmin ω) = some (idset ω))
    (set : Ω → List (ℝ × Bool)) (row : Ω → SensRow) (hgrid : ∀ ω, GridWithin (rmGridRange none none (fun _ => idset ω) sd 0) (set ω))
    (hrow : ∀ ω, (row ω).Summarises (Accepted (set ω))) :
    (fun j => c * trend p j) ∈ DeltaSDRM p q 0 ∧
    P.real {ω | (row ω).Covers (thetaOf q l τ)} ≤ Phi (20 - c * targetSum q l / sd) ∧
    (20 * sd ≤ c * targetSum q l → P.real {ω | (row ω).Covers (thetaOf q l τ)} ≤ 1 / 2) := by
  have hlin : ∀ j, full p (fun j => c * trend p j) j = c * ((j : ℝ) - p) := by
    intro j
    unfold full trend
    rcases Nat.lt_trichotomy j p with h | h | h
    · rw [if_pos h]
      beta_reduce
      rw [if_pos h]
    · rw [if_neg (by omega), if_pos h, h]
      ring
    · rw [if_neg (by omega), if_neg (by omega)]
      beta_reduce
      rw [if_neg (by omega), Nat.cast_sub (by omega)]
      push_cast
      ring
  have hD : ∀ t, D2 (full p fun j => c * trend p j) t = 0 := by
    intro t
    unfold D2
    rw [hlin, hlin, hlin]
    push_cast
    ring
  have hbias : estBias p q (postVec p l) l (fun j => c * trend p j) τ = c * targetSum q l := by
    rw [original_bias]
    unfold targetSum
    rw [mul_sum]
    refine sum_congr rfl fun k _ => ?_
    unfold trend
    rw [if_neg (by omega)]
    push_cast
    ring
  have hvar : quadForm (p + q) (postVec p l) sigma = sd ^ 2 := by
    rw [postVec_quad, hsd, Real.sq_sqrt]
    by_contra hneg
    rw [hsd, Real.sqrt_eq_zero_of_nonpos (not_le.1 hneg).le] at hpos
    exact lt_irrefl _ hpos
  have key := cover_eq P p q betaHat sigma (fun j => c * trend p j) τ l (postVec p l) (20 * sd) sd hG hvar
  have hsub : {ω | (row ω).Covers (thetaOf q l τ)} ⊆ {ω | thetaOf q l τ ∈ Set.Icc (flciOf p q (postVec p l) (betaHat ω) (20 * sd)).1
      (flciOf p q (postVec p l) (betaHat ω) (20 * sd)).2} := by
    intro ω hω
    have hz := rm_zero_set tol h0 h1 p q (betaHat ω) l (rmax ω) (rmin ω) (hM ω) (hm ω) _ (hid ω)
    obtain ⟨h3, h4⟩ := covers_within _ _ _ (hgrid ω) (hrow ω) _ hω
    unfold rmGridRange at h3 h4
    dsimp only at h3 h4
    rw [hz] at h3 h4
    have e : dotN (p + q) (postVec p l) (betaHat ω) = target p q l (betaHat ω) := postVec_dot p q l (betaHat ω)
    show _ ∧ _
    unfold flciOf
    rw [e]
    exact ⟨h3, h4⟩
  have hle : P.real {ω | (row ω).Covers (thetaOf q l τ)} ≤ Phi (20 - c * targetSum q l / sd) := by
    refine (measureReal_mono hsub).trans ?_
    rw [key, hbias, absNormal_eq _ _ _ hpos (by linarith)]
    unfold foldedCdf
    have e1 : (20 * sd - c * targetSum q l) / sd = 20 - c * targetSum q l / sd := by field_simp
    rw [e1]
    have := phi_nonneg ((-(20 * sd) - c * targetSum q l) / sd)
    linarith
  refine ⟨⟨0, by omega, fun r _ => by rw [hD, hD], fun t _ _ => by rw [hD, abs_zero, zero_mul]⟩, hle, fun hc => hle.trans ?_⟩
  rw [← phi_zero]
  refine phi_mono ?_
  have : 20 ≤ c * targetSum q l / sd := by rw [le_div_iff₀ hpos]; exact hc
  linarith

/-- C177.  Union over the pieces `(s, sign)`: if some piece accepts the grid value `theta` with probability at least `1 - alpha`, the reported
row contains it with probability at least `1 - alpha`. -/
theorem C177_union (P : Measure Ω) [IsProbabilityMeasure P] (grid : List ℝ) (hgrid : grid.Pairwise (· < ·)) (pieces : Ω → List (List Bool)) (i : ℕ) (θ : ℝ)
    (hi : grid[i]? = some θ) (k : ℕ) (alpha : ℝ) (hk : 1 - alpha ≤ P.real {ω | ((pieces ω)[k]?.getD []).getD i false = true})
    (row : Ω → SensRow) (hrow : ∀ ω, (row ω).Summarises (Accepted (unionFlags grid (pieces ω)))) :
    1 - alpha ≤ P.real {ω | (row ω).Covers θ} := by
  refine hk.trans (measureReal_mono ?_)
  intro ω hω
  have hacc : θ ∈ Accepted (unionFlags grid (pieces ω)) := by
    show (θ, true) ∈ unionFlags grid (pieces ω)
    unfold unionFlags
    rw [List.mem_mapIdx]
    obtain ⟨hlt, e⟩ := List.getElem?_eq_some_iff.1 hi
    refine ⟨i, hlt, ?_⟩
    rw [e]
    congr 1
    rw [List.any_eq_true]
    cases hp : (pieces ω)[k]? with
    | none =>
      rw [Set.mem_ofPred_eq, hp] at hω
      simp at hω
    | some f =>
      rw [Set.mem_ofPred_eq, hp] at hω
      exact ⟨f, List.mem_of_getElem? hp, hω⟩
  rcases hrow ω with ⟨h1, -⟩ | ⟨a, b, ha, hb, h1, h2⟩
  · rw [h1] at hacc
    cases hacc
  · exact ⟨a, b, ha, hb, h1.2 hacc, h2.2 hacc⟩

/-- One pre- and one post-period: an effect of 21 with standard deviation 1. -/
example : ¬ (⟨some (-20), some 20, "C-LF", "DeltaSD", 0⟩ : SensRow).Covers 21 := by
  have hf : ∀ v ∈ feasible 1 1 (sdMatrix 1 1) 0 fun _ => (0 : ℝ), target 1 1 (fun _ => (1 : ℝ)) v = 0 := by
    rintro v ⟨hv, hpre⟩
    have h3 := abs_nonpos_iff.1 ((C60_sd 1 1 0 v).1 hv 0 (by norm_num))
    have h4 := hpre 0 (by norm_num)
    simp only [D2, full] at h3
    norm_num at h3
    rw [h4] at h3
    simp [target]
    linarith
  have hmem : (fun _ => (0 : ℝ)) ∈ feasible 1 1 (sdMatrix 1 1) 0 fun _ => (0 : ℝ) :=
    ⟨(C60_sd 1 1 0 _).2 (by intro r _; simp [D2, full]), fun _ _ => rfl⟩
  have hM : LpMin (feasible 1 1 (sdMatrix 1 1) 0 fun _ => (0 : ℝ)) (fun v => -target 1 1 (fun _ => (1 : ℝ)) v) (some 0) := by
    refine ⟨⟨_, hmem, by simp [target]⟩, ?_⟩
    rintro _ ⟨v, hv, rfl⟩
    beta_reduce
    rw [hf v hv, neg_zero]
  have hm : LpMin (feasible 1 1 (sdMatrix 1 1) 0 fun _ => (0 : ℝ)) (target 1 1 fun _ => (1 : ℝ)) (some 0) := by
    refine ⟨⟨_, hmem, by simp [target]⟩, ?_⟩
    rintro _ ⟨v, hv, rfl⟩
    rw [hf v hv]
  obtain ⟨hr, h⟩ := C177_sd_violated 1 1 le_rfl (fun _ => 1) 1 _ _ hM hm
  refine h _ [(-20, true), (0, true), (20, true)] ?_ ?_ 21 (by norm_num)
  · rw [hr]
    intro x hx
    simp only [List.mem_cons, List.not_mem_nil, or_false] at hx
    rcases hx with rfl | rfl | rfl <;> norm_num
  · right
    refine ⟨-20, 20, rfl, rfl, ⟨by simp [Accepted], ?_⟩, by simp [Accepted], ?_⟩
    · rintro x hx
      simp only [Accepted, Set.mem_ofPred_eq, List.mem_cons, Prod.mk.injEq, and_true, List.not_mem_nil, or_false] at hx
      rcases hx with rfl | rfl | rfl <;> norm_num
    · rintro x hx
      simp only [Accepted, Set.mem_ofPred_eq, List.mem_cons, Prod.mk.injEq, and_true, List.not_mem_nil, or_false] at hx
      rcases hx with rfl | rfl | rfl <;> norm_num

/-- Three pre-periods, one post-period, independent standard normal errors, a linear violation of slope 20 and an effect of 5: the interval
spanning the whole grid contains the effect with probability at most one half. -/
example : (stdNormals 4).real {z | (⟨some (target 3 1 (fun _ => 1) (gaussOf 4 (betaOf 3 (fun j => 20 * trend 3 j) fun _ => 5) (fun j r => if r.val = j then 1 else 0) z) - 20 * 1),
      some (target 3 1 (fun _ => 1) (gaussOf 4 (betaOf 3 (fun j => 20 * trend 3 j) fun _ => 5) (fun j r => if r.val = j then 1 else 0) z) + 20 * 1), "C-LF", "DeltaSDRM", 0⟩ : SensRow).Covers 5} ≤ 1 / 2 := by
  classical
  have hG := gauss_exists 4 4 (betaOf 3 (fun j => 20 * trend 3 j) fun _ => 5) fun j r => if r.val = j then (1 : ℝ) else 0
  set b := gaussOf 4 (betaOf 3 (fun j => 20 * trend 3 j) fun _ => 5) fun j r => if r.val = j then (1 : ℝ) else 0 with hb
  set L : (Fin 4 → ℝ) → ℤ → Bool → Option ℝ := fun z s c => if (feasible 3 1 (rmMatrix (1 / 10 ^ 10) 3 1 0 s c) 0 (b z)).Nonempty then some 0 else none with hL
  have hLp : ∀ z, ∀ s ∈ sRangeRM 3, ∀ c, LpMin (feasible 3 1 (rmMatrix (1 / 10 ^ 10) 3 1 0 s c) 0 (b z)) (fun v => -target 3 1 (fun _ => 1) v) (L z s c) ∧
      LpMin (feasible 3 1 (rmMatrix (1 / 10 ^ 10) 3 1 0 s c) 0 (b z)) (target 3 1 fun _ => 1) (L z s c) := by
    intro z s hs c
    have hz := rm_zero_target (1 / 10 ^ 10) (by norm_num) (by norm_num) 3 1 (b z) (fun _ => 1) s hs c
    simp only [hL]
    split_ifs with hne
    · obtain ⟨v, hv⟩ := hne
      refine ⟨⟨⟨v, hv, by beta_reduce; rw [hz v hv, neg_zero]⟩, ?_⟩, ⟨⟨v, hv, hz v hv⟩, ?_⟩⟩
      · rintro _ ⟨w, hw, rfl⟩
        beta_reduce
        rw [hz w hw, neg_zero]
      · rintro _ ⟨w, hw, rfl⟩
        rw [hz w hw]
    · exact ⟨Or.inl (Set.not_nonempty_iff_eq_empty.1 hne), Or.inl (Set.not_nonempty_iff_eq_empty.1 hne)⟩
  have hex : ∀ z, ∃ r, unionSet (target 3 1 (fun _ => 1) (b z)) (sRangeRM 3) (L z) (L z) = some r := fun z => unionSet_some _ _ (by decide) _ _
  choose idset hid using hex
  have hid' : ∀ z, idset z = (target 3 1 (fun _ => 1) (b z), target 3 1 (fun _ => 1) (b z)) := fun z =>
    rm_zero_set (1 / 10 ^ 10) (by norm_num) (by norm_num) 3 1 (b z) _ (L z) (L z) (fun s hs c => (hLp z s hs c).1) (fun s hs c => (hLp z s hs c).2) _ (hid z)
  have key := (C177_sdrm_violated (stdNormals 4) (1 / 10 ^ 10) (by norm_num) (by norm_num) 3 1 le_rfl (fun _ => 1) (fun _ => 5) 20 b
    (covOf 4 fun j r => if r.val = j then 1 else 0) hG 1 (by norm_num [covOf, Fin.sum_univ_four]) one_pos L L
    (fun z s hs c => (hLp z s hs c).1) (fun z s hs c => (hLp z s hs c).2) idset hid
    (fun z => [(target 3 1 (fun _ => 1) (b z) - 20 * 1, true), (target 3 1 (fun _ => 1) (b z) + 20 * 1, true)])
    (fun z => ⟨some (target 3 1 (fun _ => 1) (b z) - 20 * 1), some (target 3 1 (fun _ => 1) (b z) + 20 * 1), "C-LF", "DeltaSDRM", 0⟩) ?_ ?_).2.2 (by norm_num [targetSum])
  · have e : thetaOf 1 (fun _ => (1 : ℝ)) (fun _ => 5) = 5 := by simp [thetaOf]
    rw [e] at key
    exact key
  · intro z x hx
    simp only [rmGridRange, hid', List.mem_cons, List.not_mem_nil, or_false] at hx ⊢
    rcases hx with rfl | rfl <;> constructor <;> linarith
  · intro z
    right
    refine ⟨_, _, rfl, rfl, ⟨by simp [Accepted], ?_⟩, by simp [Accepted], ?_⟩
    · rintro x hx
      simp only [Accepted, Set.mem_ofPred_eq, List.mem_cons, Prod.mk.injEq, and_true, List.not_mem_nil, or_false] at hx
      rcases hx with rfl | rfl <;> linarith
    · rintro x hx
      simp only [Accepted, Set.mem_ofPred_eq, List.mem_cons, Prod.mk.injEq, and_true, List.not_mem_nil, or_false] at hx
      rcases hx with rfl | rfl <;> linarith

/-- Two pieces over three grid values, the second of which always accepts the middle one. -/
example : 1 - (1 / 20 : ℝ) ≤ (Measure.dirac (0 : ℝ)).real {_ω : ℝ | (⟨some 1, some 1, "C-LF", "DeltaRM", 1⟩ : SensRow).Covers 1} := by
  refine C177_union (Measure.dirac (0 : ℝ)) [0, 1, 2] (by norm_num) (fun _ => [[false, false, false], [false, true, false]]) 1 1 rfl 1 (1 / 20) ?_
    (fun _ => ⟨some 1, some 1, "C-LF", "DeltaRM", 1⟩) ?_
  · simp [Measure.real]
  · intro ω
    right
    have e : Accepted (unionFlags [0, 1, 2] [[false, false, false], [false, true, false]]) = {1} := by
      ext x
      simp [Accepted, unionFlags, List.mapIdx_cons]
    rw [e]
    exact ⟨1, 1, rfl, rfl, isLeast_singleton, isGreatest_singleton⟩

end Verif.Honest
